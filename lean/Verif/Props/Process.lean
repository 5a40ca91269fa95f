import Verif.SpecSocket
import Verif.Model.Process
/-!
# C59, C60: many threads, many instances
-/

namespace Ipv8

/-! ## Specification -/

/-- The call is running the pool builder. -/
def NewPhase.isBuilding : NewPhase → Bool
  | .building _ => true
  | _ => false

/-- The call has not got past the `Once`. -/
def NewPhase.isWaiting : NewPhase → Bool
  | .atOnce _ => true
  | _ => false

/-- The call returned this. -/
def NewPhase.isReturned (r : NewResult) : NewPhase → Bool
  | .returned r' => r == r'
  | _ => false

/-- The call has come back to its caller. -/
def NewPhase.isDone : NewPhase → Bool
  | .returned _ => true
  | _ => false

/-- The call has got past the set-up of the pool: it is binding sockets, or succeeded, or failed to
bind. -/
def NewPhase.isPast : NewPhase → Bool
  | .bindReceiver _ => true
  | .bindSender _ _ => true
  | .returned .ok => true
  | .returned .bindError => true
  | _ => false

/-- How many of the calls are in a phase. -/
def Process.number (s : Process) (p : NewPhase → Bool) : Nat := s.calls.countP p

/-- What a call holds: the receiving socket while it binds the sending one. -/
def NewPhase.sockets : NewPhase → List SocketAddr
  | .bindSender _ r => [r]
  | _ => []

/-- What an instance holds. -/
def Instance.sockets (i : Instance) : List SocketAddr := [i.receiver, i.sender]

/-- Every socket with an owner. -/
def Process.owned (s : Process) : List SocketAddr :=
  s.calls.flatMap NewPhase.sockets ++ s.instances.flatMap Instance.sockets ++ s.listeners

/-- The labels that belong to a call of `IPv8::new` (after its beginning). -/
def PLabel.ofCall : PLabel → Bool
  | .enter _ => true
  | .build _ _ => true
  | .bind _ _ => true
  | _ => false

def PLabel.isCall : PLabel → Bool
  | .call _ => true
  | _ => false

/-! ## Lemmas -/

theorem split_at {α : Type} {l : List α} {i : Nat} {x : α} (h : l[i]? = some x) :
    ∃ p q, l = p ++ x :: q ∧ (∀ y, l.set i y = p ++ y :: q) ∧ l.eraseIdx i = p ++ q ∧ p.length = i := by
  obtain ⟨hi, hx⟩ := List.getElem?_eq_some_iff.mp h
  refine ⟨l.take i, l.drop (i + 1), ?_, ?_, ?_, ?_⟩
  · rw [← hx, ← List.drop_eq_getElem_cons hi, List.take_append_drop]
  · intro y
    rw [List.set_eq_take_append_cons_drop, if_pos hi]
  · exact List.eraseIdx_eq_take_drop_succ l i
  · simp; omega

/-- Induction over a run. -/
theorem Process.run_induction (U : Udp) (P : Process → Prop)
    (step : ∀ s a s', P s → s.step U a = some s' → P s') :
    ∀ (as : List PLabel) (s s' : Process), P s → s.run U as = some s' → P s' := by
  intro as
  induction as with
  | nil => intro s s' h hr; simp [Process.run] at hr; exact hr ▸ h
  | cons a as ih =>
    intro s s' h hr
    simp only [Process.run] at hr
    split at hr
    · next s1 hs => exact ih _ _ (step _ _ _ h hs) hr
    · simp at hr

/-! ## C59 -/

/-- The relation between the `Once`, the builder and the calls. -/
def OnceInv (s : Process) : Prop :=
  match s.once with
  | .fresh => s.builds = [] ∧ (∀ p ∈ s.calls, p.isWaiting = true)
  | .running => s.builds = [] ∧ s.calls.countP NewPhase.isBuilding = 1 ∧
      (∀ p ∈ s.calls, p.isWaiting = true ∨ p.isBuilding = true)
  | .complete => ∃ n, (s.builds = [(n, .ok ())] ∧ s.calls.countP (NewPhase.isReturned .poolError) = 0 ∨
        ∃ e, s.builds = [(n, .err e)] ∧ s.calls.countP (NewPhase.isReturned .poolError) = 1) ∧
      (∀ p ∈ s.calls, p.isWaiting = true ∨ p.isPast = true ∨ p.isReturned .poolError = true)
  | .poisoned => ∃ n, s.builds = [(n, .panic)] ∧
      s.calls.countP (NewPhase.isReturned .panicked) ≥ 1 ∧
      (∀ p ∈ s.calls, p.isWaiting = true ∨ p.isReturned .panicked = true)

theorem onceInv_step (U : Udp) (s : Process) (a : PLabel) (s' : Process) (h : OnceInv s)
    (hs : s.step U a = some s') : OnceInv s' := by
  rcases s with ⟨once, builds, calls, instances, listeners, bound⟩
  cases a with
  | call c =>
    simp only [Process.step, Option.some.injEq] at hs
    subst hs
    cases once <;> simp only [OnceInv] at h ⊢ <;>
      simp only [List.countP_append, List.mem_append, List.mem_singleton] <;>
      simp_all [NewPhase.isBuilding, NewPhase.isWaiting, NewPhase.isReturned] <;> grind [NewPhase.isWaiting]
  | enter t =>
    simp only [Process.step] at hs
    split at hs
    · next c hc =>
      obtain ⟨p, q, he, hset, -, -⟩ := split_at hc
      subst he
      cases once <;> simp only [Option.some.injEq, reduceCtorEq] at hs <;> subst hs <;>
        simp only [OnceInv, hset] at h ⊢ <;>
        simp only [List.countP_append, List.countP_cons, List.mem_append, List.mem_cons] at h ⊢
      · obtain ⟨hb, hall⟩ := h
        have hnb : ∀ x, x ∈ p ∨ x ∈ q → x.isBuilding = false := by
          intro x hx
          have := hall x (by rcases hx with hx | hx <;> simp [hx])
          cases x <;> simp_all [NewPhase.isBuilding, NewPhase.isWaiting]
        have h1 : p.countP NewPhase.isBuilding = 0 :=
          List.countP_eq_zero.mpr fun x hx => by simp [hnb x (.inl hx)]
        have h2 : q.countP NewPhase.isBuilding = 0 :=
          List.countP_eq_zero.mpr fun x hx => by simp [hnb x (.inr hx)]
        refine ⟨hb, by simp [h1, h2, NewPhase.isBuilding], ?_⟩
        rintro x (hx | rfl | hx)
        · exact .inl (hall x (by simp [hx]))
        · exact .inr rfl
        · exact .inl (hall x (by simp [hx]))
      · obtain ⟨n, hb, hall⟩ := h
        refine ⟨n, hb, ?_⟩
        rintro x (hx | rfl | hx)
        · exact hall x (by simp [hx])
        · exact .inr (.inl rfl)
        · exact hall x (by simp [hx])
      · obtain ⟨n, hb, hn, hall⟩ := h
        refine ⟨n, hb, by simp [NewPhase.isReturned]; omega, ?_⟩
        rintro x (hx | rfl | hx)
        · exact hall x (by simp [hx])
        · exact .inr rfl
        · exact hall x (by simp [hx])
    · simp at hs
  | build t o =>
    simp only [Process.step] at hs
    split at hs
    · next c hc =>
      obtain ⟨p, q, he, hset, -, -⟩ := split_at hc
      subst he
      have hrun : once = .running := by
        cases once <;> simp only [OnceInv] at h
        · have := h.2 (.building c) (by simp)
          simp [NewPhase.isWaiting] at this
        · rfl
        · obtain ⟨n, -, h⟩ := h
          have := h (.building c) (by simp)
          simp [NewPhase.isWaiting, NewPhase.isPast, NewPhase.isReturned] at this
        · obtain ⟨n, -, -, h⟩ := h
          have := h (.building c) (by simp)
          simp [NewPhase.isWaiting, NewPhase.isReturned] at this
      subst hrun
      obtain ⟨hb, hc1, hall⟩ := h
      simp only at hb
      subst hb
      have hbt : (NewPhase.building c).isBuilding = true := rfl
      simp only [List.countP_append, List.countP_cons, List.mem_append, List.mem_cons,
        hbt, if_pos] at hc1 hall
      -- everybody else is waiting
      have hw : ∀ x, x ∈ p ∨ x ∈ q → x.isWaiting = true := by
        intro x hx
        have h0 : p.countP NewPhase.isBuilding = 0 ∧ q.countP NewPhase.isBuilding = 0 := by omega
        have hnb : x.isBuilding = false := by
          rcases hx with hx | hx
          · simpa using List.countP_eq_zero.mp h0.1 x hx
          · simpa using List.countP_eq_zero.mp h0.2 x hx
        have := hall x (by rcases hx with hx | hx <;> simp [hx])
        simpa [hnb] using this
      have hnr : ∀ r, p.countP (NewPhase.isReturned r) = 0 ∧ q.countP (NewPhase.isReturned r) = 0 := by
        intro r
        constructor <;> apply List.countP_eq_zero.mpr <;> intro x hx hx'
        · have := hw x (.inl hx); cases x <;> simp_all [NewPhase.isWaiting, NewPhase.isReturned]
        · have := hw x (.inr hx); cases x <;> simp_all [NewPhase.isWaiting, NewPhase.isReturned]
      split at hs <;> simp only [Option.some.injEq] at hs <;> subst hs <;>
        simp only [OnceInv, hset, List.nil_append, List.countP_append, List.countP_cons,
          List.mem_append, List.mem_cons, hnr]
      · refine ⟨_, .inl ⟨rfl, by simp [NewPhase.isReturned]⟩, ?_⟩
        rintro x (hx | rfl | hx)
        · exact .inl (hw x (.inl hx))
        · exact .inr (.inl rfl)
        · exact .inl (hw x (.inr hx))
      · refine ⟨_, .inr ⟨_, rfl, by simp [NewPhase.isReturned]⟩, ?_⟩
        rintro x (hx | rfl | hx)
        · exact .inl (hw x (.inl hx))
        · exact .inr (.inr rfl)
        · exact .inl (hw x (.inr hx))
      · refine ⟨_, rfl, by simp [NewPhase.isReturned], ?_⟩
        rintro x (hx | rfl | hx)
        · exact .inl (hw x (.inl hx))
        · exact .inr rfl
        · exact .inl (hw x (.inr hx))
    · simp at hs
  | bind t o =>
    have key : ∀ (p q : List NewPhase) (x y : NewPhase) (is : List Instance) (bd : List SocketAddr),
        OnceInv ⟨once, builds, p ++ x :: q, instances, listeners, bound⟩ →
        x.isWaiting = false → x.isBuilding = false → x.isDone = false → y.isPast = true →
        OnceInv ⟨once, builds, p ++ y :: q, is, listeners, bd⟩ := by
      intro p q x y is bd h hx1 hx2 hx3 hy
      have hx4 : ∀ r, x.isReturned r = false := by
        intro r; cases x <;> simp_all [NewPhase.isDone, NewPhase.isReturned]
      have hy4 : y.isReturned .poolError = false := by
        cases y with
        | returned r => cases r <;> simp_all [NewPhase.isPast, NewPhase.isReturned]
        | _ => rfl
      cases once <;> simp only [OnceInv, List.countP_append, List.countP_cons, List.mem_append,
        List.mem_cons] at h ⊢
      · have := h.2 x (by simp); simp_all
      · have := h.2.2 x (by simp); simp_all
      · obtain ⟨n, hb, hall⟩ := h
        simp only [hx4, hy4] at hb ⊢
        refine ⟨n, hb, ?_⟩
        rintro z (hz | rfl | hz)
        · exact hall z (by simp [hz])
        · exact .inr (.inl hy)
        · exact hall z (by simp [hz])
      · obtain ⟨n, -, -, hall⟩ := h
        have := hall x (by simp); simp_all
    simp only [Process.step] at hs
    split at hs
    · next c hc =>
      obtain ⟨p, q, he, hset, -, -⟩ := split_at hc
      subst he
      split at hs
      · simp only [Option.some.injEq] at hs; subst hs
        rw [hset]; exact key _ _ _ _ _ _ h rfl rfl rfl rfl
      · split at hs <;> simp only [Option.some.injEq, reduceCtorEq] at hs
        subst hs
        rw [hset]; exact key _ _ _ _ _ _ h rfl rfl rfl rfl
    · next c r hc =>
      obtain ⟨p, q, he, hset, -, -⟩ := split_at hc
      subst he
      split at hs
      · simp only [Option.some.injEq] at hs; subst hs
        rw [hset]; exact key _ _ _ _ _ _ h rfl rfl rfl rfl
      · split at hs <;> simp only [Option.some.injEq, reduceCtorEq] at hs
        subst hs
        rw [hset]; exact key _ _ _ _ _ _ h rfl rfl rfl rfl
    · simp at hs
  | start i =>
    simp only [Process.step] at hs
    split at hs <;> simp only [Option.some.injEq, reduceCtorEq] at hs
    subst hs; exact h
  | dropInstance i =>
    simp only [Process.step] at hs
    split at hs <;> simp only [Option.some.injEq, reduceCtorEq] at hs
    subst hs; exact h
  | listenerEnds i =>
    simp only [Process.step] at hs
    split at hs <;> simp only [Option.some.injEq, reduceCtorEq] at hs
    subst hs; exact h

theorem onceInv_reachable {U : Udp} {as : List PLabel} {s : Process}
    (h : Process.init.run U as = some s) : OnceInv s :=
  Process.run_induction U OnceInv (onceInv_step U) as Process.init s
    (by simp [OnceInv, Process.init]) h

/-- **C59.**  Any number of threads call `IPv8::new` at the same time, and instances come and go, in any
interleaving.  In every state of every such run:

* the pool builder has been run or is being run by at most one call in total;
* a call that got beyond the pool set-up did so after the builder answered, and the builder did not panic;
* the builder's error was reported to exactly one caller if there was one, and to nobody otherwise;
* a call panics only if the builder did. -/
theorem C59 (U : Udp) (as : List PLabel) (s : Process) (h : Process.init.run U as = some s) :
    s.builds.length + s.number NewPhase.isBuilding ≤ 1 ∧
    (∀ p ∈ s.calls, p.isPast = true →
      ∃ n, s.builds = [(n, .ok ())] ∨ ∃ e, s.builds = [(n, .err e)]) ∧
    ((∃ n e, s.builds = [(n, .err e)]) → s.number (NewPhase.isReturned .poolError) = 1) ∧
    ((¬ ∃ n e, s.builds = [(n, .err e)]) → s.number (NewPhase.isReturned .poolError) = 0) ∧
    (s.number (NewPhase.isReturned .panicked) ≥ 1 ↔ ∃ n, s.builds = [(n, .panic)]) := by
  have hi := onceInv_reachable h
  clear h
  rcases s with ⟨once, builds, calls, instances, listeners, bound⟩
  have none : ∀ q : NewPhase → Bool, (∀ p ∈ calls, q p = false) → calls.countP q = 0 := fun q hq =>
    List.countP_eq_zero.mpr fun p hp => by simp [hq p hp]
  simp only [Process.number]
  cases once <;> simp only [OnceInv] at hi
  · obtain ⟨rfl, hall⟩ := hi
    have hb := none NewPhase.isBuilding fun p hp => by
      have := hall p hp; cases p <;> simp_all [NewPhase.isWaiting, NewPhase.isBuilding]
    have hr : ∀ r, calls.countP (NewPhase.isReturned r) = 0 := fun r => none _ fun p hp => by
      have := hall p hp; cases p <;> simp_all [NewPhase.isWaiting, NewPhase.isReturned]
    refine ⟨by simp [hb], ?_, by simp, by simp [hr], by simp [hr]⟩
    intro p hp hpast
    have := hall p hp
    cases p <;> simp_all [NewPhase.isWaiting, NewPhase.isPast]
  · obtain ⟨rfl, hb, hall⟩ := hi
    have hr : ∀ r, calls.countP (NewPhase.isReturned r) = 0 := fun r => none _ fun p hp => by
      have := hall p hp
      cases p <;> simp_all [NewPhase.isWaiting, NewPhase.isReturned, NewPhase.isBuilding]
    refine ⟨by simp [hb], ?_, by simp, by simp [hr], by simp [hr]⟩
    intro p hp hpast
    have := hall p hp
    cases p <;> simp_all [NewPhase.isWaiting, NewPhase.isPast, NewPhase.isBuilding]
  · obtain ⟨n, hbuilds, hall⟩ := hi
    have hb := none NewPhase.isBuilding fun p hp => by
      have := hall p hp
      cases p <;> simp_all [NewPhase.isWaiting, NewPhase.isBuilding, NewPhase.isPast, NewPhase.isReturned]
    have hr := none (NewPhase.isReturned .panicked) fun p hp => by
      have := hall p hp
      cases p with
      | returned r => cases r <;> simp_all [NewPhase.isWaiting, NewPhase.isPast, NewPhase.isReturned]
      | _ => rfl
    rcases hbuilds with ⟨rfl, hp⟩ | ⟨e, rfl, hp⟩
    · exact ⟨by simp [hb], fun _ _ _ => ⟨n, .inl rfl⟩, by simp, by simp [hp], by simp [hr]⟩
    · exact ⟨by simp [hb], fun _ _ _ => ⟨n, .inr ⟨e, rfl⟩⟩, by simp [hp], by simp, by simp [hr]⟩
  · obtain ⟨n, rfl, hp, hall⟩ := hi
    have hb := none NewPhase.isBuilding fun p hp => by
      have := hall p hp
      cases p <;> simp_all [NewPhase.isWaiting, NewPhase.isBuilding, NewPhase.isReturned]
    have hr := none (NewPhase.isReturned .poolError) fun p hp => by
      have := hall p hp
      cases p with
      | returned r => cases r <;> simp_all [NewPhase.isWaiting, NewPhase.isReturned]
      | _ => rfl
    refine ⟨by simp [hb], ?_, by simp, by simp [hr], by simp [hp]⟩
    intro p hp' hpast
    have := hall p hp'
    cases p with
    | returned r => cases r <;> simp_all [NewPhase.isWaiting, NewPhase.isReturned, NewPhase.isPast]
    | _ => simp_all [NewPhase.isWaiting, NewPhase.isReturned, NewPhase.isPast]

/-- Configurations in the state. -/
def NewPhase.config? : NewPhase → Option Config
  | .atOnce c => some c
  | .building c => some c
  | .bindReceiver c => some c
  | .bindSender c _ => some c
  | .returned _ => none

/-- **C59, thread count.**  The pool is built with the thread count of the configuration of one of the
callers (so all instances of the process share it). -/
theorem C59_threads (U : Udp) (as : List PLabel) (s : Process) (h : Process.init.run U as = some s)
    (n : Nat) (o : Outcome Unit) (hb : (n, o) ∈ s.builds) :
    ∃ c, PLabel.call c ∈ as ∧ c.threadcount = n := by
  let Q : Process → Prop := fun s =>
    (∀ p ∈ s.calls, ∀ c, p.config? = some c → PLabel.call c ∈ as) ∧
    (∀ x ∈ s.builds, ∃ c, PLabel.call c ∈ as ∧ c.threadcount = x.1)
  suffices hQ : ∀ (bs : List PLabel) (s s' : Process), (∀ b ∈ bs, b ∈ as) → Q s →
      s.run U bs = some s' → Q s' by
    obtain ⟨c, hc, hn⟩ := (hQ as _ _ (fun b hb => hb) ⟨by simp [Process.init], by simp [Process.init]⟩ h).2 _ hb
    exact ⟨c, hc, hn⟩
  intro bs
  induction bs with
  | nil => intro s s' _ h hr; simp [Process.run] at hr; exact hr ▸ h
  | cons b bs ih =>
    intro s s' hsub hq hr
    simp only [Process.run] at hr
    split at hr
    case h_2 => simp at hr
    next s1 hs =>
    refine ih s1 s' (fun x hx => hsub x (by simp [hx])) ?_ hr
    have set : ∀ (p : NewPhase) (t : Nat) (y : NewPhase), s.calls[t]? = some p →
        (∀ c, y.config? = some c → p.config? = some c) →
        (∀ p ∈ s.calls.set t y, ∀ c, p.config? = some c → PLabel.call c ∈ as) := by
      intro p t y ht hy z hz c hc
      obtain ⟨l, r, he, hset, -, -⟩ := split_at ht
      have hq1 := hq.1
      rw [hset] at hz
      rw [he] at hq1
      simp only [List.mem_append, List.mem_cons] at hz hq1
      rcases hz with hz | rfl | hz
      · exact hq1 z (.inl hz) c hc
      · exact hq1 p (by simp) c (hy c hc)
      · exact hq1 z (.inr (.inr hz)) c hc
    have bld : ∀ (c : Config) (t : Nat) (o : Outcome Unit), s.calls[t]? = some (.building c) →
        ∀ x ∈ s.builds ++ [(c.threadcount, o)], ∃ c, PLabel.call c ∈ as ∧ c.threadcount = x.1 := by
      intro c t o ht x hx
      simp only [List.mem_append, List.mem_singleton] at hx
      rcases hx with hx | rfl
      · exact hq.2 x hx
      · exact ⟨c, hq.1 _ (List.mem_of_getElem? ht) c rfl, rfl⟩
    cases b with
    | call c =>
      simp only [Process.step, Option.some.injEq] at hs
      subst hs
      refine ⟨?_, hq.2⟩
      intro p hp c' hc'
      simp only [List.mem_append, List.mem_singleton] at hp
      rcases hp with hp | rfl
      · exact hq.1 p hp c' hc'
      · simp only [NewPhase.config?, Option.some.injEq] at hc'
        subst hc'
        exact hsub _ (by simp)
    | enter t =>
      simp only [Process.step] at hs
      split at hs
      case h_2 => simp at hs
      next c hc =>
      split at hs <;> simp only [Option.some.injEq, reduceCtorEq] at hs <;> subst hs <;>
        exact ⟨set _ _ _ hc (by simp [NewPhase.config?]), hq.2⟩
    | build t o =>
      simp only [Process.step] at hs
      split at hs
      case h_2 => simp at hs
      next c hc =>
      split at hs <;> simp only [Option.some.injEq] at hs <;> subst hs <;>
        exact ⟨set _ _ _ hc (by simp [NewPhase.config?]), bld c t _ hc⟩
    | bind t o =>
      simp only [Process.step] at hs
      split at hs
      · next c hc =>
        split at hs
        · simp only [Option.some.injEq] at hs; subst hs
          exact ⟨set _ _ _ hc (by simp [NewPhase.config?]), hq.2⟩
        · split at hs <;> simp only [Option.some.injEq, reduceCtorEq] at hs
          subst hs
          exact ⟨set _ _ _ hc (by simp [NewPhase.config?]), hq.2⟩
      · next c r hc =>
        split at hs
        · simp only [Option.some.injEq] at hs; subst hs
          exact ⟨set _ _ _ hc (by simp [NewPhase.config?]), hq.2⟩
        · split at hs <;> simp only [Option.some.injEq, reduceCtorEq] at hs
          subst hs
          exact ⟨set _ _ _ hc (by simp [NewPhase.config?]), hq.2⟩
      · simp at hs
    | start i =>
      simp only [Process.step] at hs
      split at hs <;> simp only [Option.some.injEq, reduceCtorEq] at hs
      subst hs; exact hq
    | dropInstance i =>
      simp only [Process.step] at hs
      split at hs <;> simp only [Option.some.injEq, reduceCtorEq] at hs
      subst hs; exact hq
    | listenerEnds i =>
      simp only [Process.step] at hs
      split at hs <;> simp only [Option.some.injEq, reduceCtorEq] at hs
      subst hs; exact hq

/-- **C59, no deadlock.**  Whatever state the process has reached, a call of `IPv8::new` that has not
returned can take a step of its own, except when it waits at the `Once`; and then some call is running the
builder, and goes on whatever the builder answers. -/
theorem C59_progress (U : Udp) (as : List PLabel) (s : Process) (h : Process.init.run U as = some s)
    (t : Nat) (p : NewPhase) (hp : s.calls[t]? = some p) (hd : p.isDone = false) :
    (s.step U (.enter t)).isSome = true ∨
    (∀ o, (s.step U (.build t o)).isSome = true) ∨
    (s.step U (.bind t none)).isSome = true ∨
    ∃ t', t' ≠ t ∧ ∀ o, (s.step U (.build t' o)).isSome = true := by
  have hi := onceInv_reachable h
  have hbuild : ∀ (t : Nat) (c : Config), s.calls[t]? = some (.building c) →
      ∀ o, (s.step U (.build t o)).isSome = true := by
    intro t c hc o
    cases o <;> simp [Process.step, hc]
  cases p with
  | returned r => simp [NewPhase.isDone] at hd
  | building c => exact .inr (.inl (hbuild t c hp))
  | bindReceiver c => exact .inr (.inr (.inl (by simp [Process.step, hp])))
  | bindSender c r => exact .inr (.inr (.inl (by simp [Process.step, hp])))
  | atOnce c =>
    cases ho : s.once with
    | fresh => exact .inl (by simp [Process.step, hp, ho])
    | complete => exact .inl (by simp [Process.step, hp, ho])
    | poisoned => exact .inl (by simp [Process.step, hp, ho])
    | running =>
      simp only [OnceInv, ho] at hi
      obtain ⟨-, hc, -⟩ := hi
      obtain ⟨x, hx, hxb⟩ := List.countP_pos_iff.mp (by omega : 0 < s.calls.countP NewPhase.isBuilding)
      obtain ⟨t', ht'⟩ := List.getElem?_of_mem hx
      cases x with
      | building c' =>
        refine .inr (.inr (.inr ⟨t', ?_, hbuild t' c' ht'⟩))
        rintro rfl
        simp [hp] at ht'
      | _ => simp [NewPhase.isBuilding] at hxb

/-- Steps a call can still take. -/
def NewPhase.remaining : NewPhase → Nat
  | .atOnce _ => 4
  | .building _ => 3
  | .bindReceiver _ => 2
  | .bindSender _ _ => 1
  | .returned _ => 0

theorem remaining_step (U : Udp) (s s' : Process) (a : PLabel) (hs : s.step U a = some s') :
    (s'.calls.map NewPhase.remaining).sum + (if a.ofCall then 1 else 0) ≤
      (s.calls.map NewPhase.remaining).sum + (if a.isCall then 4 else 0) := by
  have set : ∀ (p : NewPhase) (t : Nat) (y : NewPhase), s.calls[t]? = some p →
      y.remaining + 1 ≤ p.remaining →
      ((s.calls.set t y).map NewPhase.remaining).sum + 1 ≤ (s.calls.map NewPhase.remaining).sum := by
    intro p t y ht hy
    obtain ⟨l, r, he, hset, -, -⟩ := split_at ht
    rw [hset, he]
    simp
    omega
  cases a with
  | call c =>
    simp only [Process.step, Option.some.injEq] at hs
    subst hs
    simp [PLabel.ofCall, PLabel.isCall, NewPhase.remaining]
  | enter t =>
    simp only [Process.step] at hs
    split at hs
    case h_2 => simp at hs
    next c hc =>
    split at hs <;> simp only [Option.some.injEq, reduceCtorEq] at hs <;> subst hs <;>
      simpa [PLabel.ofCall, PLabel.isCall] using set _ _ _ hc (by simp [NewPhase.remaining])
  | build t o =>
    simp only [Process.step] at hs
    split at hs
    case h_2 => simp at hs
    next c hc =>
    split at hs <;> simp only [Option.some.injEq] at hs <;> subst hs <;>
      simpa [PLabel.ofCall, PLabel.isCall] using set _ _ _ hc (by simp [NewPhase.remaining])
  | bind t o =>
    simp only [Process.step] at hs
    split at hs
    · next c hc =>
      split at hs
      · simp only [Option.some.injEq] at hs; subst hs
        simpa [PLabel.ofCall, PLabel.isCall] using set _ _ _ hc (by simp [NewPhase.remaining])
      · split at hs <;> simp only [Option.some.injEq, reduceCtorEq] at hs
        subst hs
        simpa [PLabel.ofCall, PLabel.isCall] using set _ _ _ hc (by simp [NewPhase.remaining])
    · next c r hc =>
      split at hs
      · simp only [Option.some.injEq] at hs; subst hs
        simpa [PLabel.ofCall, PLabel.isCall] using set _ _ _ hc (by simp [NewPhase.remaining])
      · split at hs <;> simp only [Option.some.injEq, reduceCtorEq] at hs
        subst hs
        simpa [PLabel.ofCall, PLabel.isCall] using set _ _ _ hc (by simp [NewPhase.remaining])
    · simp at hs
  | start i =>
    simp only [Process.step] at hs
    split at hs <;> simp only [Option.some.injEq, reduceCtorEq] at hs
    subst hs; simp [PLabel.ofCall, PLabel.isCall]
  | dropInstance i =>
    simp only [Process.step] at hs
    split at hs <;> simp only [Option.some.injEq, reduceCtorEq] at hs
    subst hs; simp [PLabel.ofCall, PLabel.isCall]
  | listenerEnds i =>
    simp only [Process.step] at hs
    split at hs <;> simp only [Option.some.injEq, reduceCtorEq] at hs
    subst hs; simp [PLabel.ofCall, PLabel.isCall]

/-- **C59, termination.**  `n` calls of `IPv8::new` take together at most `4 * n` steps, in any
interleaving; with `C59_progress`, every call returns as soon as the threads are scheduled. -/
theorem C59_terminates (U : Udp) (as : List PLabel) (s : Process)
    (h : Process.init.run U as = some s) :
    as.countP PLabel.ofCall ≤ 4 * as.countP PLabel.isCall := by
  suffices hk : ∀ (as : List PLabel) (s s' : Process), s.run U as = some s' →
      as.countP PLabel.ofCall ≤ 4 * as.countP PLabel.isCall + (s.calls.map NewPhase.remaining).sum by
    simpa [Process.init] using hk as _ _ h
  intro as
  induction as with
  | nil => intro s s' _; simp
  | cons a as ih =>
    intro s s' hr
    simp only [Process.run] at hr
    split at hr
    case h_2 => simp at hr
    next s1 hs =>
    have h1 := remaining_step U s s1 a hs
    have h2 := ih s1 s' hr
    simp only [List.countP_cons]
    have e1 : (if a.isCall = true then 4 else 0) = 4 * (if a.isCall = true then 1 else 0) := by
      split <;> rfl
    omega

/-! ## C60 -/

/-- The table of the operating system and the owners agree. -/
structure SocketInv (U : Udp) (s : Process) : Prop where
  owned : ∀ a, s.bound.count a = s.owned.count a
  apart : s.bound.Pairwise (fun a b => U.conflict a b = false)

theorem canBind_apart {U : Udp} {s : Process} {r a : SocketAddr} (h : s.canBind U r a = true)
    (hp : s.bound.Pairwise (fun a b => U.conflict a b = false)) :
    (s.bound ++ [a]).Pairwise (fun a b => U.conflict a b = false) := by
  simp only [Process.canBind, Bool.and_eq_true, List.all_eq_true, Bool.not_eq_true'] at h
  refine List.pairwise_append.mpr ⟨hp, by simp, ?_⟩
  intro x hx y hy
  simp only [List.mem_singleton] at hy
  subst hy
  rw [U.symm]
  exact h.2 x hx

theorem socketInv_step (U : Udp) (s : Process) (a : PLabel) (s' : Process) (h : SocketInv U s)
    (hs : s.step U a = some s') : SocketInv U s' := by
  rcases s with ⟨once, builds, calls, instances, listeners, bound⟩
  obtain ⟨ho, ha⟩ := h
  simp only [Process.owned] at ho ha
  cases a with
  | call c =>
    simp only [Process.step, Option.some.injEq] at hs
    subst hs
    exact ⟨by simpa [Process.owned, NewPhase.sockets] using ho, ha⟩
  | enter t =>
    simp only [Process.step] at hs
    split at hs
    case h_2 => simp at hs
    next c hc =>
    obtain ⟨p, q, he, hset, -, -⟩ := split_at hc
    subst he
    split at hs <;> simp only [Option.some.injEq, reduceCtorEq] at hs <;> subst hs <;>
      exact ⟨by simpa [Process.owned, NewPhase.sockets, hset] using ho, ha⟩
  | build t o =>
    simp only [Process.step] at hs
    split at hs
    case h_2 => simp at hs
    next c hc =>
    obtain ⟨p, q, he, hset, -, -⟩ := split_at hc
    subst he
    split at hs <;> simp only [Option.some.injEq] at hs <;> subst hs <;>
      exact ⟨by simpa [Process.owned, NewPhase.sockets, hset] using ho, ha⟩
  | bind t o =>
    simp only [Process.step] at hs
    split at hs
    · next c hc =>
      obtain ⟨p, q, he, hset, -, -⟩ := split_at hc
      subst he
      split at hs
      · simp only [Option.some.injEq] at hs; subst hs
        exact ⟨by simpa [Process.owned, NewPhase.sockets, hset] using ho, ha⟩
      · split at hs <;> simp only [Option.some.injEq, reduceCtorEq] at hs
        next hb =>
        subst hs
        refine ⟨?_, canBind_apart hb ha⟩
        intro x
        have := ho x
        simp only [Process.owned, NewPhase.sockets, hset, List.flatMap_append, List.flatMap_cons,
          List.count_append, List.count_nil] at this ⊢
        omega
    · next c r hc =>
      obtain ⟨p, q, he, hset, -, -⟩ := split_at hc
      subst he
      split at hs
      · simp only [Option.some.injEq] at hs; subst hs
        refine ⟨?_, ha.erase _⟩
        intro x
        have := ho x
        simp only [Process.owned, NewPhase.sockets, hset, List.flatMap_append, List.flatMap_cons,
          List.count_append, List.count_nil, List.count_cons, List.count_erase] at this ⊢
        omega
      · split at hs <;> simp only [Option.some.injEq, reduceCtorEq] at hs
        next hb =>
        subst hs
        refine ⟨?_, canBind_apart hb ha⟩
        intro x
        have := ho x
        simp only [Process.owned, NewPhase.sockets, Instance.sockets, hset, List.flatMap_append,
          List.flatMap_cons, List.flatMap_nil, List.append_nil,
          List.count_append, List.count_nil, List.count_cons] at this ⊢
        omega
    · simp at hs
  | start i =>
    simp only [Process.step] at hs
    split at hs <;> simp only [Option.some.injEq, reduceCtorEq] at hs
    next x hx =>
    obtain ⟨p, q, he, -, hera, -⟩ := split_at hx
    subst he
    subst hs
    refine ⟨?_, ha.erase _⟩
    intro y
    have := ho y
    simp only [Process.owned, Instance.sockets, hera, List.flatMap_append, List.flatMap_cons,
      List.count_append, List.count_nil, List.count_cons, List.count_erase] at this ⊢
    omega
  | dropInstance i =>
    simp only [Process.step] at hs
    split at hs <;> simp only [Option.some.injEq, reduceCtorEq] at hs
    next x hx =>
    obtain ⟨p, q, he, -, hera, -⟩ := split_at hx
    subst he
    subst hs
    refine ⟨?_, (ha.erase _).erase _⟩
    intro y
    have := ho y
    simp only [Process.owned, Instance.sockets, hera, List.flatMap_append, List.flatMap_cons,
      List.count_append, List.count_nil, List.count_cons, List.count_erase] at this ⊢
    omega
  | listenerEnds i =>
    simp only [Process.step] at hs
    split at hs <;> simp only [Option.some.injEq, reduceCtorEq] at hs
    next x hx =>
    obtain ⟨p, q, he, -, hera, -⟩ := split_at hx
    subst he
    subst hs
    refine ⟨?_, ha.erase _⟩
    intro y
    have := ho y
    simp only [Process.owned, hera,
      List.count_append, List.count_cons, List.count_erase] at this ⊢
    omega

theorem socketInv_reachable {U : Udp} {as : List PLabel} {s : Process}
    (h : Process.init.run U as = some s) : SocketInv U s :=
  Process.run_induction U (SocketInv U) (socketInv_step U) as Process.init s
    ⟨by simp [Process.init, Process.owned], by simp [Process.init]⟩ h

/-- **C60.**  In every state of every run, the sockets of the process in the table of the operating system
are exactly the ones somebody owns: a call that has bound its receiving socket and not yet its sending
one, the two of each live instance, and the receiving one of each listening thread.  So no failing
`IPv8::new`, no `start` and no drop leaks a socket or closes one that is in use.  And no two of them are in
conflict. -/
theorem C60 (U : Udp) (as : List PLabel) (s : Process) (h : Process.init.run U as = some s) :
    s.bound.Perm s.owned ∧ s.bound.Pairwise (fun a b => U.conflict a b = false) :=
  ⟨List.perm_iff_count.mpr (socketInv_reachable h).owned, (socketInv_reachable h).apart⟩

/-- **C60, nothing left.**  If every call has returned, no instance is alive and no listening thread runs,
then no socket is bound, whatever failed on the way. -/
theorem C60_noLeak (U : Udp) (as : List PLabel) (s : Process) (h : Process.init.run U as = some s)
    (hd : ∀ p ∈ s.calls, p.isDone = true) (hi : s.instances = []) (hl : s.listeners = []) :
    s.bound = [] := by
  have := (C60 U as s h).1
  have hc : s.calls.flatMap NewPhase.sockets = [] := by
    simp only [List.flatMap_eq_nil_iff]
    intro p hp
    have := hd p hp
    cases p <;> simp_all [NewPhase.isDone, NewPhase.sockets]
  simpa [Process.owned, hc, hi, hl] using this

/-- Addresses are those that were asked for. -/
theorem addresses_reachable {U : Udp} {as : List PLabel} {s : Process}
    (h : Process.init.run U as = some s) :
    (∀ c r, NewPhase.bindSender c r ∈ s.calls → resolves c.receivingAddress.sock r = true) ∧
    (∀ i ∈ s.instances, resolves i.config.receivingAddress.sock i.receiver = true ∧
      resolves i.config.sendingAddress.sock i.sender = true) := by
  let Q : Process → Prop := fun s =>
    (∀ c r, NewPhase.bindSender c r ∈ s.calls → resolves c.receivingAddress.sock r = true) ∧
    (∀ i ∈ s.instances, resolves i.config.receivingAddress.sock i.receiver = true ∧
      resolves i.config.sendingAddress.sock i.sender = true)
  refine Process.run_induction U Q ?_ as Process.init s
    ⟨by simp [Process.init], by simp [Process.init]⟩ h
  clear h s as
  intro s a s' hq hs
  have set : ∀ (t : Nat) (y : NewPhase),
      (∀ c r, y = .bindSender c r → resolves c.receivingAddress.sock r = true) →
      ∀ c r, NewPhase.bindSender c r ∈ s.calls.set t y → resolves c.receivingAddress.sock r = true := by
    intro t y hy c r hm
    rcases List.mem_or_eq_of_mem_set hm with hm | hm
    · exact hq.1 c r hm
    · exact hy c r hm.symm
  have era : ∀ k, ∀ i ∈ s.instances.eraseIdx k, resolves i.config.receivingAddress.sock i.receiver = true ∧
      resolves i.config.sendingAddress.sock i.sender = true := fun k i hi =>
    hq.2 i (List.mem_of_mem_eraseIdx hi)
  cases a with
  | call c =>
    simp only [Process.step, Option.some.injEq] at hs
    subst hs
    refine ⟨?_, hq.2⟩
    intro c' r hm
    simp only [List.mem_append, List.mem_singleton, reduceCtorEq, or_false] at hm
    exact hq.1 c' r hm
  | enter t =>
    simp only [Process.step] at hs
    split at hs
    case h_2 => simp at hs
    next c hc =>
    split at hs <;> simp only [Option.some.injEq, reduceCtorEq] at hs <;> subst hs <;>
      exact ⟨set _ _ (by simp), hq.2⟩
  | build t o =>
    simp only [Process.step] at hs
    split at hs
    case h_2 => simp at hs
    next c hc =>
    split at hs <;> simp only [Option.some.injEq] at hs <;> subst hs <;>
      exact ⟨set _ _ (by simp), hq.2⟩
  | bind t o =>
    simp only [Process.step] at hs
    split at hs
    · next c hc =>
      split at hs
      · simp only [Option.some.injEq] at hs; subst hs
        exact ⟨set _ _ (by simp), hq.2⟩
      · split at hs <;> simp only [Option.some.injEq, reduceCtorEq] at hs
        next hb =>
        subst hs
        simp only [Process.canBind, Bool.and_eq_true] at hb
        refine ⟨set _ _ ?_, hq.2⟩
        intro c' r' he
        cases he
        exact hb.1
    · next c r hc =>
      split at hs
      · simp only [Option.some.injEq] at hs; subst hs
        exact ⟨set _ _ (by simp), hq.2⟩
      · split at hs <;> simp only [Option.some.injEq, reduceCtorEq] at hs
        next hb =>
        subst hs
        simp only [Process.canBind, Bool.and_eq_true] at hb
        refine ⟨set _ _ (by simp), ?_⟩
        intro j hj
        simp only [List.mem_append, List.mem_singleton] at hj
        rcases hj with hj | rfl
        · exact hq.2 j hj
        · exact ⟨hq.1 c r (List.mem_of_getElem? hc), hb.1⟩
    · simp at hs
  | start i =>
    simp only [Process.step] at hs
    split at hs <;> simp only [Option.some.injEq, reduceCtorEq] at hs
    subst hs; exact ⟨hq.1, era i⟩
  | dropInstance i =>
    simp only [Process.step] at hs
    split at hs <;> simp only [Option.some.injEq, reduceCtorEq] at hs
    subst hs; exact ⟨hq.1, era i⟩
  | listenerEnds i =>
    simp only [Process.step] at hs
    split at hs <;> simp only [Option.some.injEq, reduceCtorEq] at hs
    subst hs; exact hq

/-- **C60, configuration.**  The sockets of a live instance have the addresses its configuration asked for
(port 0 stands for any). -/
theorem C60_addresses (U : Udp) (as : List PLabel) (s : Process) (h : Process.init.run U as = some s)
    (i : Instance) (hi : i ∈ s.instances) :
    Spec.Gives i.config.receivingAddress.sock i.receiver ∧
    Spec.Gives i.config.sendingAddress.sock i.sender := by
  rw [← resolves_iff, ← resolves_iff]
  exact (addresses_reachable h).2 i hi

/-- A specific port determines the address. -/
theorem gives_unique {r a b : SocketAddr} (hp : r.port ≠ 0) (ha : Spec.Gives r a)
    (hb : Spec.Gives r b) : a = b := by
  rw [← resolves_iff] at ha hb
  cases r <;> cases a <;> cases b <;>
    simp only [resolves, SocketAddr.port, Bool.and_eq_true, Bool.or_eq_true, beq_iff_eq,
      Bool.false_eq_true, SocketAddr.v4.injEq, SocketAddr.v6.injEq] at *
  · grind
  · grind

/-- **C60, one instance per port.**  At no time do two live instances have configurations with the same
sending address, if its port is not 0.  In particular at most one live instance has the default
configuration. -/
theorem C60_onePerPort (U : Udp) (as : List PLabel) (s : Process) (h : Process.init.run U as = some s)
    (m n : Nat) (i j : Instance) (hm : s.instances[m]? = some i) (hn : s.instances[n]? = some j)
    (hsame : i.config.sendingAddress = j.config.sendingAddress)
    (hp : i.config.sendingAddress.sock.port ≠ 0) : m = n := by
  obtain ⟨ho, ha⟩ := socketInv_reachable h
  have ei := (C60_addresses U as s h i (List.mem_of_getElem? hm)).2
  have ej := (C60_addresses U as s h j (List.mem_of_getElem? hn)).2
  have he : i.sender = j.sender := gives_unique hp ei (hsame ▸ ej)
  have hnd : s.bound.Nodup := ha.imp (fun {a b} h e => by simp [e, U.self] at h)
  have hc := List.nodup_iff_count.mp hnd i.sender
  rw [ho i.sender] at hc
  simp only [Process.owned, List.count_append] at hc
  have two : ∀ (m n : Nat) (i j : Instance), i.sender = j.sender → m < n →
      s.instances[m]? = some i → s.instances[n]? = some j →
      2 ≤ (s.instances.flatMap Instance.sockets).count i.sender := by
    intro m n i j he hlt hm hn
    obtain ⟨p, q, e, -, -, hlen⟩ := split_at hm
    rw [e] at hn ⊢
    rw [List.getElem?_append_right (by omega), hlen] at hn
    obtain ⟨k, hk⟩ : ∃ k, n - m = k + 1 := ⟨n - m - 1, by omega⟩
    rw [hk, List.getElem?_cons_succ] at hn
    obtain ⟨p', q', e', -, -, -⟩ := split_at hn
    rw [e']
    simp only [List.flatMap_append, List.flatMap_cons, Instance.sockets, List.count_append,
      List.count_cons, List.count_nil, he, beq_self_eq_true, if_true]
    omega
  rcases Nat.lt_trichotomy m n with hlt | heq | hgt
  · have := two m n i j he hlt hm hn; omega
  · exact heq
  · have := two n m j i he.symm hgt hn hm
    rw [← he] at this
    omega

/-- **C60, port taken.**  While an instance with some sending address (port not 0) is alive, a call of
`IPv8::new` that asks for the same one can only fail to bind; it then holds no socket, the receiving one
it had bound is closed. -/
theorem C60_taken (U : Udp) (as : List PLabel) (s : Process) (h : Process.init.run U as = some s)
    (i : Instance) (hi : i ∈ s.instances) (hp : i.config.sendingAddress.sock.port ≠ 0)
    (t : Nat) (c : Config) (r : SocketAddr) (ht : s.calls[t]? = some (.bindSender c r))
    (hsame : c.sendingAddress = i.config.sendingAddress) (o : Option SocketAddr) (s' : Process)
    (hs : s.step U (.bind t o) = some s') :
    s'.calls[t]? = some (.returned .bindError) ∧ s'.instances = s.instances ∧ r ∉ s'.bound := by
  obtain ⟨ho, ha⟩ := socketInv_reachable h
  have hnd : s.bound.Nodup := ha.imp (fun {a b} h e => by simp [e, U.self] at h)
  have hmem : i.sender ∈ s.bound := by
    refine (List.perm_iff_count.mpr ho).mem_iff.mpr ?_
    simp only [Process.owned, List.mem_append, List.mem_flatMap]
    exact .inl (.inr ⟨i, hi, by simp [Instance.sockets]⟩)
  simp only [Process.step, ht] at hs
  cases o with
  | none =>
    simp only [Option.some.injEq] at hs
    subst hs
    refine ⟨?_, rfl, ?_⟩
    · simp [(List.getElem?_eq_some_iff.mp ht).1]
    · simp [hnd.mem_erase_iff]
  | some a =>
    exfalso
    dsimp only at hs
    split at hs
    case isFalse => simp at hs
    next hb =>
    simp only [Process.canBind, Bool.and_eq_true, List.all_eq_true, Bool.not_eq_true'] at hb
    have e : a = i.sender := gives_unique hp ((resolves_iff _ _).mp (hsame ▸ hb.1)) (C60_addresses U as s h i hi).2
    have := hb.2 i.sender hmem
    rw [e, U.self] at this
    simp at this

/-- **C60, `start` gives the sending port back.**  Starting an instance closes its sending socket: that
address can be bound again at once, and the instance can never send again.  Its receiving socket stays
bound, and now belongs to the listening thread. -/
theorem C60_start (U : Udp) (as : List PLabel) (s : Process) (h : Process.init.run U as = some s)
    (n : Nat) (i : Instance) (hi : s.instances[n]? = some i) :
    ∃ s', s.step U (.start n) = some s' ∧
      i.sender ∉ s'.bound ∧
      (∀ a ∈ s'.bound, U.conflict i.sender a = false) ∧
      i.receiver ∈ s'.bound ∧ i.receiver ∈ s'.listeners ∧
      s'.instances.length + 1 = s.instances.length := by
  obtain ⟨ho, ha⟩ := socketInv_reachable h
  have hnd : s.bound.Nodup := ha.imp (fun {a b} h e => by simp [e, U.self] at h)
  obtain ⟨p, q, e, -, hera, -⟩ := split_at hi
  have hs : s.step U (.start n) = some { s with
        instances := s.instances.eraseIdx n
        listeners := s.listeners ++ [i.receiver]
        bound := s.bound.erase i.sender } := by
    simp [Process.step, hi]
  refine ⟨_, hs, ?_, ?_, ?_, by simp, ?_⟩
  · simp [hnd.mem_erase_iff]
  · intro b hb
    have hne : b ≠ i.sender ∧ b ∈ s.bound := hnd.mem_erase_iff.mp hb
    have hmem : i.sender ∈ s.bound := by
      refine (List.perm_iff_count.mpr ho).mem_iff.mpr ?_
      simp only [Process.owned, List.mem_append, List.mem_flatMap]
      exact .inl (.inr ⟨i, List.mem_of_getElem? hi, by simp [Instance.sockets]⟩)
    exact List.Pairwise.forall_of_forall_of_flip (R := fun a b => a ≠ b → U.conflict a b = false)
      (by intro x _ hx; exact absurd rfl hx)
      (List.Pairwise.imp (S := fun a b => a ≠ b → U.conflict a b = false) (fun h _ => h) ha)
      (List.Pairwise.imp (S := flip fun a b => a ≠ b → U.conflict a b = false)
        (fun {a b} h _ => by rw [U.symm]; exact h) ha) hmem hne.2 (fun he => hne.1 he.symm)
  · -- the receiving socket is owned in the new state
    have ho' := (socketInv_step U s _ _ ⟨ho, ha⟩ hs).owned
    refine (List.perm_iff_count.mpr ho').mem_iff.mpr ?_
    simp [Process.owned]
  · rw [hera, e]
    simp
    omega

/-! ## Concrete runs -/

/-- Addresses conflict if they have the same port and address family and equal or wildcard addresses; here
the coarser rule "same port". -/
def Udp.samePort : Udp where
  conflict a b := a.port == b.port
  self a := by simp
  symm a b := BEq.comm

/-- The run used below: two threads call `IPv8::new` with the default configuration at the same time. The
first builds the pool; the second waits, and then finds port 8000 taken.  After the first instance is
started, a third call succeeds. -/
def twoThreads : List PLabel :=
  [.call Config.default, .call Config.default, .enter 0, .build 0 (.ok ()), .enter 1,
   .bind 0 (some (.v4 0 0 0 0 40000)), .bind 1 (some (.v4 0 0 0 0 40001)),
   .bind 0 (some (.v4 0 0 0 0 8000)), .bind 1 none]

example : ((Process.init.run Udp.samePort twoThreads).map fun s =>
    (s.builds.length, s.number (NewPhase.isReturned .ok), s.number (NewPhase.isReturned .bindError),
      s.instances.length, s.bound)) =
    some (1, 1, 1, 1, [.v4 0 0 0 0 40000, .v4 0 0 0 0 8000]) := by decide +kernel

/-- the second caller cannot enter while the first builds -/
example : (Process.init.run Udp.samePort
    [.call Config.default, .call Config.default, .enter 0, .enter 1]).isNone = true := by decide +kernel

/-- the second caller cannot get port 8000 while the first instance is alive -/
example : (Process.init.run Udp.samePort
    (twoThreads.dropLast ++ [.bind 1 (some (.v4 0 0 0 0 8000))])).isNone = true := by decide +kernel

/-- after `start` it can -/
example : ((Process.init.run Udp.samePort
    (twoThreads.dropLast ++ [.start 0, .bind 1 (some (.v4 0 0 0 0 8000))])).map fun s =>
      (s.instances.length, s.listeners, s.bound)) =
    some (1, [.v4 0 0 0 0 40000],
      [.v4 0 0 0 0 40000, .v4 0 0 0 0 40001, .v4 0 0 0 0 8000]) := by decide +kernel

/-- a failing builder: the first caller gets the error, the second one an instance -/
example : ((Process.init.run Udp.samePort
    [.call Config.default, .call Config.default, .enter 1, .build 1 (.err (.custom "x")), .enter 0,
     .bind 0 (some (.v4 0 0 0 0 40000)), .bind 0 (some (.v4 0 0 0 0 8000))]).map fun s =>
      (s.number (NewPhase.isReturned .poolError), s.number (NewPhase.isReturned .ok))) =
    some (1, 1) := by decide +kernel

/-! ## Cases for the theorems above -/

/-- `C59_terminates` and `C59_threads`: the two calls of `twoThreads`. -/
example (s : Process) (h : Process.init.run Udp.samePort twoThreads = some s) :
    7 ≤ 4 * 2 ∧ ∃ c, PLabel.call c ∈ twoThreads ∧ c.threadcount = 0 := by
  have hb : (0, .ok ()) ∈ s.builds := by
    cases h
    exact List.mem_singleton.mpr rfl
  exact ⟨C59_terminates _ _ _ h, C59_threads _ _ _ h _ _ hb⟩

/-- `C60_noLeak`: an instance is created and dropped. -/
example (s : Process) (h : Process.init.run Udp.samePort
    [.call Config.default, .enter 0, .build 0 (.ok ()), .bind 0 (some (.v4 0 0 0 0 40000)),
     .bind 0 (some (.v4 0 0 0 0 8000)), .dropInstance 0] = some s) : s.bound = [] := by
  have h' := h
  cases h'
  exact C60_noLeak _ _ _ h (by decide) rfl rfl

/-- `C60_onePerPort`: the only instance of `twoThreads`. -/
example (s : Process) (h : Process.init.run Udp.samePort twoThreads = some s) (n : Nat) (j : Instance)
    (hn : s.instances[n]? = some j) (hj : j.config.sendingAddress = Config.default.sendingAddress) : n = 0 := by
  have hm : ∃ i, s.instances[0]? = some i ∧ i.config = Config.default := by
    cases h
    exact ⟨_, rfl, rfl⟩
  obtain ⟨i, hm, hi⟩ := hm
  exact (C60_onePerPort _ _ _ h 0 n i j hm hn (by rw [hi, hj]) (by rw [hi]; decide)).symm

/-- `C60_taken`: the second call of `twoThreads` fails whatever the system answers. -/
example (s s' : Process) (h : Process.init.run Udp.samePort twoThreads.dropLast = some s) (o : Option SocketAddr)
    (hs : s.step Udp.samePort (.bind 1 o) = some s') : s'.calls[1]? = some (.returned .bindError) := by
  have hm : ∃ i, i ∈ s.instances ∧ i.config = Config.default ∧
      s.calls[1]? = some (.bindSender Config.default (.v4 0 0 0 0 40001)) := by
    cases h
    exact ⟨_, List.mem_singleton.mpr rfl, rfl, rfl⟩
  obtain ⟨i, hm, hi, hc⟩ := hm
  exact (C60_taken _ _ _ h i hm (by rw [hi]; decide) 1 _ _ hc (by rw [hi]) o s' hs).1

/-- `C59_progress`: the second caller waits for the first, which builds. -/
example := C59_progress Udp.samePort [.call Config.default, .call Config.default, .enter 0] _ rfl 1 _ rfl rfl

/-- `C60_addresses`, `C60_start`: the instance of `twoThreads`. -/
example (s : Process) (h : Process.init.run Udp.samePort twoThreads = some s) (i : Instance) (hi : i ∈ s.instances) :=
  C60_addresses Udp.samePort twoThreads s h i hi
example (s : Process) (h : Process.init.run Udp.samePort twoThreads = some s) : ∃ i, s.instances[0]? = some i ∧
    ∃ s', s.step Udp.samePort (.start 0) = some s' ∧ i.sender ∉ s'.bound := by
  have hm : ∃ i, s.instances[0]? = some i := by
    cases h
    exact ⟨_, rfl⟩
  obtain ⟨i, hm⟩ := hm
  obtain ⟨s', h1, h2, -⟩ := C60_start Udp.samePort twoThreads s h 0 i hm
  exact ⟨i, hm, s', h1, h2⟩

end Ipv8
