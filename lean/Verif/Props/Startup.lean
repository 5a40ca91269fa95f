import Verif.Props.Process
import Verif.Model.Startup
/-!
# C112: who sets up the thread pool, and what if nobody can
-/

namespace Ipv8

/-! ## Specification -/

/-- This is a call of `IPv8::new`. -/
def PoolUser.isCall : PoolUser → Bool
  | .call _ _ => true
  | _ => false

/-- This is a listening thread that `scope_fifo` has killed. -/
def PoolUser.isDead : PoolUser → Bool
  | .thread _ .dead => true
  | _ => false

/-- The number of datagrams this listening thread has handed over to the pool. -/
def PoolUser.handed : PoolUser → Nat
  | .thread n _ => n
  | _ => 0

/-- Neither at its end nor waiting for a datagram. -/
def PoolUser.isBusy : PoolUser → Bool
  | .call _ (.ended _) => false
  | .call _ _ => true
  | .thread _ .idle => false
  | .thread _ .dead => false
  | .thread _ _ => true

/-- Every hand-over of a datagram has worked so far. -/
def Startup.AllAlive (s : Startup) : Prop := ∀ u ∈ s.users, u.isDead = false

/-- None ever has. -/
def Startup.NoneHanded (s : Startup) : Prop := ∀ u ∈ s.users, u.handed = 0

/-- A step of somebody who is busy. -/
def StartupLabel.ofBusy : StartupLabel → Bool
  | .go _ => true
  | .built _ _ => true
  | _ => false

/-- It ended like this. -/
def Startup.EndedAt (s : Startup) (i : Nat) (r : SetUp) : Prop := ∃ c, s.users[i]? = some (.call c (.ended r))

/-- All calls that have ended, except number `i`, ended like this. -/
def Startup.OthersEnded (s : Startup) (i : Nat) (r : SetUp) : Prop := ∀ j r', s.EndedAt j r' → j ≠ i → r' = r

/-- `IPv8::new` has not been called. -/
def Startup.NoCalls (s : Startup) : Prop := ∀ u ∈ s.users, u.isCall = false

/-- A call as `Model/Process.lean` describes it, where the pool builder is a single step with any outcome. -/
def PoolUser.asCall : PoolUser → Option NewPhase
  | .call c .atOnce => some (.atOnce c)
  | .call c .inside => some (.building c)
  | .call c .building => some (.building c)
  | .call c (.ended .ok) => some (.bindReceiver c)
  | .call _ (.ended .already) => some (.returned .poolError)
  | .call _ (.ended .failed) => some (.returned .poolError)
  | .call _ (.ended .panicked) => some (.returned .panicked)
  | .thread _ _ => none

/-! ## Proofs -/

/-- What user number `i` can be. -/
def Startup.Fits (H : RayonHost) (s : Startup) (i : Nat) : PoolUser → Prop
  | .call _ .atOnce => s.first ≠ some i ∧ s.builder ≠ some i
  | .call _ .inside => s.first = some i ∧ s.crate = .running ∧ s.builder ≠ some i
  | .call _ .building =>
    s.first = some i ∧ s.builder = some i ∧ s.crate = .running ∧ s.rayon = .running ∧ s.pool = none
  | .call c (.ended r) =>
    (s.first = some i ∧ s.builder = some i ∧ s.crate = .complete ∧ s.rayon = .complete ∧
      ((r = .ok ∧ s.pool = some (H.size c.threadcount)) ∨ (r = .failed ∧ s.pool = none))) ∨
    (s.first = some i ∧ s.builder ≠ some i ∧ r = .already ∧ s.crate = .complete ∧ s.rayon = .complete) ∨
    (s.first = some i ∧ s.builder ≠ some i ∧ r = .panicked ∧ s.crate = .poisoned ∧ s.rayon = .poisoned) ∨
    (s.first ≠ some i ∧ s.builder ≠ some i ∧ r = .ok ∧ s.crate = .complete) ∨
    (s.first ≠ some i ∧ s.builder ≠ some i ∧ r = .panicked ∧ s.crate = .poisoned)
  | .thread n .idle => s.first ≠ some i ∧ (0 < n → s.pool ≠ none) ∧ (s.builder = some i → 0 < n ∧ s.pool = some (H.size 0))
  | .thread n .asks => s.first ≠ some i ∧ (0 < n → s.pool ≠ none) ∧ (s.builder = some i → 0 < n ∧ s.pool = some (H.size 0))
  | .thread n .building => s.first ≠ some i ∧ n = 0 ∧ s.builder = some i ∧ s.rayon = .running ∧ s.pool = none
  | .thread n .dead => s.first ≠ some i ∧ n = 0 ∧ s.pool = none ∧ (s.rayon = .complete ∨ s.rayon = .poisoned) ∧
    (s.builder = some i → s.rayon = if H.poisons then .poisoned else .complete)

/-- What always holds. -/
structure Startup.Ok (H : RayonHost) (s : Startup) : Prop where
  crate : s.crate = .fresh ↔ s.first = none
  rayon : s.rayon = .fresh ↔ s.builder = none
  pool : s.pool ≠ none → s.rayon = .complete
  poison : s.rayon = .poisoned → H.poisons = true ∧
    ∃ i n, s.builder = some i ∧ s.users[i]? = some (.thread n .dead)
  first : ∀ i : Nat, s.first = some i → ∃ c p, s.users[i]? = some (.call c p)
  builder : ∀ i : Nat, s.builder = some i → ∃ u, s.users[i]? = some u
  users : ∀ (i : Nat) u, s.users[i]? = some u → s.Fits H i u

theorem Startup.Ok.init (H : RayonHost) : Startup.init.Ok H := by
  constructor <;> simp [Startup.init]

theorem Startup.Ok.one {H : RayonHost} {s : Startup} (h : s.Ok H) {t : Nat} {u : PoolUser} (ht : s.users[t]? = some u)
    {s' : Startup} {u' : PoolUser} (e : s'.users = s.users.set t u') (f : s'.Fits H t u') (ec : u.isCall = u'.isCall)
    (ed : ∀ n, u ≠ .thread n .dead)
    (others : ∀ (i : Nat) u, i ≠ t → s.users[i]? = some u → s.Fits H i u → s'.Fits H i u)
    (g1 : s'.crate = .fresh ↔ s'.first = none) (g2 : s'.rayon = .fresh ↔ s'.builder = none)
    (g3 : s'.pool ≠ none → s'.rayon = .complete)
    (g4 : s'.rayon = .poisoned → (s.rayon = .poisoned ∧ s'.builder = s.builder) ∨ (H.poisons = true ∧
      s'.builder = some t ∧ ∃ n, s'.users = s.users.set t (.thread n .dead)))
    (g5 : s'.first = s.first ∨ (s'.first = some t ∧ u.isCall = true))
    (g6 : s'.builder = s.builder ∨ s'.builder = some t) : s'.Ok H := by
  obtain ⟨h1, h2, h3, h4, h5, h6, h7⟩ := h
  have hlt : t < s.users.length := by
    rw [List.getElem?_eq_some_iff] at ht; exact ht.1
  have at_t : s'.users[t]? = some u' := by rw [e]; simp [hlt]
  have off : ∀ i : Nat, i ≠ t → s'.users[i]? = s.users[i]? := fun i hi => by
    rw [e, List.getElem?_set]; simp [Ne.symm hi]
  refine ⟨g1, g2, g3, fun hp => ?_, fun i hi => ?_, fun i hi => ?_, fun i v hv => ?_⟩
  · rcases g4 hp with ⟨a, b⟩ | ⟨a, b, n, c⟩
    · obtain ⟨k1, i, n, k2, k3⟩ := h4 a
      refine ⟨k1, i, n, by rw [b, k2], ?_⟩
      by_cases hit : i = t
      · subst hit
        rw [at_t]
        rw [ht] at k3
        exact absurd (Option.some.inj k3) (ed n)
      · rw [off i hit, k3]
    · refine ⟨a, t, n, b, ?_⟩
      rw [c]; simp [hlt]
  · by_cases hit : i = t
    · subst hit
      have hc : u.isCall = true := by
        rcases g5 with g5 | g5
        · obtain ⟨c, p, k⟩ := h5 i (by rw [← g5, hi])
          rw [ht] at k; cases k; rfl
        · exact g5.2
      rw [at_t]
      rw [ec] at hc
      cases u' with
      | call c p => exact ⟨c, p, rfl⟩
      | thread n p => cases hc
    · rw [off i hit]
      exact h5 i (by rcases g5 with g5 | g5 <;> grind)
  · by_cases hit : i = t
    · subst hit; exact ⟨u', at_t⟩
    · rw [off i hit]
      exact h6 i (by rcases g6 with g6 | g6 <;> grind)
  · by_cases hit : i = t
    · subst hit
      rw [at_t] at hv; cases hv; exact f
    · rw [off i hit] at hv
      exact others i v hit hv (h7 i v hv)

theorem Startup.Ok.app {H : RayonHost} {s : Startup} (h : s.Ok H) (u : PoolUser)
    (hu : u = .thread 0 .idle ∨ ∃ c, u = .call c .atOnce) : ({ s with users := s.users ++ [u] } : Startup).Ok H := by
  obtain ⟨h1, h2, h3, h4, h5, h6, h7⟩ := h
  have app : ∀ u', (∀ i, s.users.length ≤ i → s.Fits H i u') →
      ({ s with users := s.users ++ [u'] } : Startup).Ok H := by
    intro u' hu'
    constructor <;> try grind
    intro i v hv
    rw [List.getElem?_append] at hv
    split at hv
    · exact h7 i v hv
    · have : i - s.users.length = 0 ∧ u' = v := by
        cases hi : i - s.users.length with
        | zero => rw [hi] at hv; exact ⟨rfl, Option.some.inj hv⟩
        | succ k => rw [hi] at hv; cases hv
      exact this.2 ▸ hu' i (by omega)
  have nofirst : ∀ i, s.users.length ≤ i → s.first ≠ some i := fun i hi e => by
    obtain ⟨c, p, k⟩ := h5 i e
    rw [List.getElem?_eq_none hi] at k; cases k
  have nobuilder : ∀ i, s.users.length ≤ i → s.builder ≠ some i := fun i hi e => by
    obtain ⟨u, k⟩ := h6 i e
    rw [List.getElem?_eq_none hi] at k; cases k
  rcases hu with rfl | ⟨c, rfl⟩
  · exact app _ fun i hi => ⟨nofirst i hi, fun h => absurd h (Nat.lt_irrefl _), fun h => absurd h (nobuilder i hi)⟩
  · exact app _ fun i hi => ⟨nofirst i hi, nobuilder i hi⟩

/-- The same with fewer things to look at. -/
macro "startup_others " v:ident : tactic => `(tactic|
  (rcases $v:ident with ⟨c', p⟩ | ⟨n', p⟩ <;> cases p <;> simp only [Startup.Fits, Startup.put] at * <;> grind))

theorem Startup.Ok.go {H : RayonHost} {s s' : Startup} {t : Nat} (h : s.Ok H) (hs : s.step H (.go t) = some s') :
    s'.Ok H := by
  dsimp only [Startup.step] at hs
  split at hs
  · rename_i c ht
    have ft := h.users _ _ ht
    have h1 := h.crate; have h2 := h.rayon; have h3 := h.pool
    split at hs <;> cases hs
    · refine h.one ht rfl ?_ rfl (fun _ => nofun) (fun i v hi hv f => ?_) ?_ ?_ ?_ ?_ ?_ ?_ <;> clear ht h <;> try clear hv
      · simp only [Startup.Fits, Startup.put] at *; grind
      · startup_others v
      · simp
      · exact h2
      · exact h3
      · exact fun h => .inl ⟨h, rfl⟩
      · exact .inr ⟨rfl, rfl⟩
      · exact .inl rfl
    · refine h.one ht rfl ?_ rfl (fun _ => nofun) (fun i v hi hv f => f) h1 h2 h3 (fun h => .inl ⟨h, rfl⟩) (.inl rfl) (.inl rfl)
      simp only [Startup.Fits, Startup.put] at *; grind
    · refine h.one ht rfl ?_ rfl (fun _ => nofun) (fun i v hi hv f => f) h1 h2 h3 (fun h => .inl ⟨h, rfl⟩) (.inl rfl) (.inl rfl)
      simp only [Startup.Fits, Startup.put] at *; grind
  · rename_i c ht
    have ft := h.users _ _ ht
    have h1 := h.crate; have h2 := h.rayon; have h3 := h.pool
    split at hs <;> cases hs
    · refine h.one ht rfl ?_ rfl (fun _ => nofun) (fun i v hi hv f => ?_) ?_ ?_ ?_ ?_ ?_ ?_ <;> clear ht h <;> try clear hv
      · simp only [Startup.Fits, Startup.put] at *; grind
      · startup_others v
      · exact h1
      · simp
      · simp only [Startup.put] at *; grind
      · simp
      · exact .inl rfl
      · exact .inr rfl
    · refine h.one ht rfl ?_ rfl (fun _ => nofun) (fun i v hi hv f => ?_) ?_ ?_ ?_ ?_ ?_ ?_ <;> clear ht h <;> try clear hv
      · simp only [Startup.Fits, Startup.put] at *; grind
      · startup_others v
      · simp only [Startup.Fits, Startup.put] at *; grind
      · exact h2
      · exact h3
      · exact fun h => .inl ⟨h, rfl⟩
      · exact .inl rfl
      · exact .inl rfl
    · refine h.one ht rfl ?_ rfl (fun _ => nofun) (fun i v hi hv f => ?_) ?_ ?_ ?_ ?_ ?_ ?_ <;> clear ht h <;> try clear hv
      · simp only [Startup.Fits, Startup.put] at *; grind
      · startup_others v
      · simp only [Startup.Fits, Startup.put] at *; grind
      · exact h2
      · exact h3
      · exact fun h => .inl ⟨h, rfl⟩
      · exact .inl rfl
      · exact .inl rfl
  · rename_i n ht
    have ft := h.users _ _ ht
    have h1 := h.crate; have h2 := h.rayon; have h3 := h.pool
    split at hs
    · cases hs
      refine h.one ht rfl ?_ rfl (fun _ => nofun) (fun i v hi hv f => ?_) ?_ ?_ ?_ ?_ ?_ ?_ <;> clear ht h <;> try clear hv
      · simp only [Startup.Fits, Startup.put] at *; grind
      · startup_others v
      · exact h1
      · simp
      · simp only [Startup.put] at *; grind
      · simp
      · exact .inl rfl
      · exact .inr rfl
    · cases hs
    · split at hs <;> cases hs
      · refine h.one ht rfl ?_ rfl (fun _ => nofun) (fun i v hi hv f => f) h1 h2 h3 (fun h => .inl ⟨h, rfl⟩) (.inl rfl) (.inl rfl)
        simp only [Startup.Fits, Startup.put] at *; grind
      · refine h.one ht rfl ?_ rfl (fun _ => nofun) (fun i v hi hv f => f) h1 h2 h3 (fun h => .inl ⟨h, rfl⟩) (.inl rfl) (.inl rfl)
        simp only [Startup.Fits, Startup.put] at *; grind
    · cases hs
      refine h.one ht rfl ?_ rfl (fun _ => nofun) (fun i v hi hv f => f) h1 h2 h3 (fun h => .inl ⟨h, rfl⟩) (.inl rfl) (.inl rfl)
      simp only [Startup.Fits, Startup.put] at *; grind
  · cases hs

theorem Startup.Ok.built {H : RayonHost} {s s' : Startup} {t : Nat} {works : Bool} (h : s.Ok H)
    (hs : s.step H (.built t works) = some s') : s'.Ok H := by
  dsimp only [Startup.step] at hs
  split at hs
  · rename_i c ht
    have ft := h.users _ _ ht
    have h1 := h.crate; have h2 := h.rayon; have h3 := h.pool
    split at hs <;> cases hs
    · refine h.one ht rfl ?_ rfl (fun _ => nofun) (fun i v hi hv f => ?_) ?_ ?_ ?_ ?_ ?_ ?_ <;> clear ht h <;> try clear hv
      · simp only [Startup.Fits, Startup.put] at *; grind
      · startup_others v
      · simp only [Startup.Fits, Startup.put] at *; grind
      · simp only [Startup.Fits, Startup.put] at *; grind
      · simp
      · simp
      · exact .inl rfl
      · exact .inl rfl
    · refine h.one ht rfl ?_ rfl (fun _ => nofun) (fun i v hi hv f => ?_) ?_ ?_ ?_ ?_ ?_ ?_ <;> clear ht h <;> try clear hv
      · simp only [Startup.Fits, Startup.put] at *; grind
      · startup_others v
      · simp only [Startup.Fits, Startup.put] at *; grind
      · simp only [Startup.Fits, Startup.put] at *; grind
      · simp
      · simp
      · exact .inl rfl
      · exact .inl rfl
  · rename_i n ht
    have ft := h.users _ _ ht
    have h1 := h.crate; have h2 := h.rayon; have h3 := h.pool
    split at hs <;> cases hs
    · refine h.one ht rfl ?_ rfl (fun _ => nofun) (fun i v hi hv f => ?_) ?_ ?_ ?_ ?_ ?_ ?_ <;> clear ht h <;> try clear hv
      · simp only [Startup.Fits, Startup.put] at *; grind
      · startup_others v
      · exact h1
      · simp only [Startup.Fits, Startup.put] at *; grind
      · simp
      · simp
      · exact .inl rfl
      · exact .inl rfl
    · refine h.one ht rfl ?_ rfl (fun _ => nofun) (fun i v hi hv f => ?_) ?_ ?_ ?_ ?_ ?_ ?_ <;> clear ht h <;> try clear hv
      · simp only [Startup.Fits, Startup.put] at *; grind
      · startup_others v
      · exact h1
      · simp only [Startup.Fits, Startup.put] at *; grind
      · simp only [Startup.Fits, Startup.put] at *; grind
      · simp only [Startup.Fits, Startup.put] at *; grind
      · exact .inl rfl
      · exact .inl rfl
  · cases hs

theorem Startup.Ok.step {H : RayonHost} {s s' : Startup} {x : StartupLabel} (h : s.Ok H) (hs : s.step H x = some s') :
    s'.Ok H := by
  cases x with
  | call config => cases hs; exact h.app _ (.inr ⟨_, rfl⟩)
  | listen => cases hs; exact h.app _ (.inl rfl)
  | datagram t =>
    dsimp only [Startup.step] at hs
    split at hs
    · rename_i n ht
      cases hs
      exact h.one ht rfl (h.users _ _ ht) rfl (fun _ => nofun) (fun i v _ _ f => f) h.crate h.rayon h.pool
        (fun h => .inl ⟨h, rfl⟩) (.inl rfl) (.inl rfl)
    · cases hs
  | go t => exact h.go hs
  | built t works => exact h.built hs

theorem Startup.Ok.run {H : RayonHost} {s s' : Startup} {xs : List StartupLabel} (h : s.Ok H)
    (hs : s.run H xs = some s') : s'.Ok H := by
  induction xs generalizing s with
  | nil => cases hs; exact h
  | cons x xs ih =>
    unfold Startup.run at hs
    split at hs
    · rename_i s1 h1
      exact ih (h.step h1) hs
    · cases hs


theorem Startup.Ok.reached {H : RayonHost} {s : Startup} {xs : List StartupLabel} (h : Startup.init.run H xs = some s) :
    s.Ok H := (Startup.Ok.init H).run h

/-- What later states have in common with earlier ones. -/
structure Startup.Later (s s' : Startup) : Prop where
  complete : s.rayon = .complete → s'.rayon = .complete ∧ s'.pool = s.pool
  poisoned : s.rayon = .poisoned → s'.rayon = .poisoned ∧ s'.pool = s.pool
  first : ∀ i, s.first = some i → s'.first = some i
  builder : ∀ i, s.builder = some i → s'.builder = some i
  call : ∀ (i : Nat) c p, s.users[i]? = some (.call c p) → ∃ p', s'.users[i]? = some (.call c p')
  ended : ∀ (i : Nat) c r, s.users[i]? = some (.call c (.ended r)) → s'.users[i]? = some (.call c (.ended r))
  thread : ∀ (i : Nat) n p, s.users[i]? = some (.thread n p) → ∃ n' p', n ≤ n' ∧ s'.users[i]? = some (.thread n' p')
  dead : ∀ (i : Nat) n, s.users[i]? = some (.thread n .dead) → s'.users[i]? = some (.thread n .dead)

theorem Startup.Later.refl (s : Startup) : s.Later s :=
  ⟨fun h => ⟨h, rfl⟩, fun h => ⟨h, rfl⟩, fun _ h => h, fun _ h => h, fun _ _ p h => ⟨p, h⟩, fun _ _ _ h => h,
    fun _ n p h => ⟨n, p, Nat.le_refl _, h⟩, fun _ _ h => h⟩

theorem Startup.Later.trans {s s' s'' : Startup} (h : s.Later s') (h' : s'.Later s'') : s.Later s'' := by
  refine ⟨fun e => ?_, fun e => ?_, fun i e => h'.first i (h.first i e), fun i e => h'.builder i (h.builder i e),
    fun i c p e => ?_, fun i c r e => h'.ended _ _ _ (h.ended _ _ _ e), fun i n p e => ?_,
    fun i n e => h'.dead _ _ (h.dead _ _ e)⟩
  · obtain ⟨a, b⟩ := h.complete e
    obtain ⟨a', b'⟩ := h'.complete a
    exact ⟨a', b'.trans b⟩
  · obtain ⟨a, b⟩ := h.poisoned e
    obtain ⟨a', b'⟩ := h'.poisoned a
    exact ⟨a', b'.trans b⟩
  · obtain ⟨p', e'⟩ := h.call i c p e
    exact h'.call i c p' e'
  · obtain ⟨n', p', l, e'⟩ := h.thread i n p e
    obtain ⟨n'', p'', l', e''⟩ := h'.thread i n' p' e'
    exact ⟨n'', p'', Nat.le_trans l l', e''⟩

theorem Startup.Later.one {s s' : Startup} {t : Nat} {u u' : PoolUser} (ht : s.users[t]? = some u)
    (e : s'.users = s.users.set t u')
    (hc : (∃ c p p', u = .call c p ∧ u' = .call c p' ∧ ∀ r, p ≠ .ended r) ∨
      (∃ n n' p p', u = .thread n p ∧ u' = .thread n' p' ∧ n ≤ n' ∧ p ≠ .dead))
    (hcom : s.rayon = .complete → s'.rayon = .complete ∧ s'.pool = s.pool)
    (hpoi : s.rayon = .poisoned → s'.rayon = .poisoned ∧ s'.pool = s.pool)
    (hf : ∀ i, s.first = some i → s'.first = some i) (hb : ∀ i, s.builder = some i → s'.builder = some i) :
    s.Later s' := by
  have hlt : t < s.users.length := by
    rw [List.getElem?_eq_some_iff] at ht; exact ht.1
  have at_t : s'.users[t]? = some u' := by rw [e]; simp [hlt]
  have off : ∀ i : Nat, i ≠ t → s'.users[i]? = s.users[i]? := fun i hi => by
    rw [e, List.getElem?_set]; simp [Ne.symm hi]
  refine ⟨hcom, hpoi, hf, hb, fun i c p h => ?_, fun i c r h => ?_, fun i n p h => ?_, fun i n h => ?_⟩
  all_goals by_cases hi : i = t
  all_goals first | (rw [off i hi]; first | exact ⟨_, h⟩ | exact h | exact ⟨_, _, Nat.le_refl _, h⟩) | (subst hi; rw [at_t])
  all_goals rw [ht] at h
  all_goals rcases hc with ⟨c0, p0, p0', rfl, rfl, hp⟩ | ⟨n0, n0', p0, p0', rfl, rfl, hn, hp⟩ <;> cases h
  · exact ⟨_, rfl⟩
  · exact absurd rfl (hp _)
  · exact ⟨_, _, hn, rfl⟩
  · exact absurd rfl hp

theorem Startup.Ok.later1 {H : RayonHost} {s s' : Startup} {x : StartupLabel} (h : s.Ok H)
    (hs : s.step H x = some s') : s.Later s' := by
  cases x with
  | call config =>
    cases hs
    refine ⟨fun h => ⟨h, rfl⟩, fun h => ⟨h, rfl⟩, fun _ h => h, fun _ h => h, ?_, ?_, ?_, ?_⟩ <;> intros <;> grind
  | listen =>
    cases hs
    refine ⟨fun h => ⟨h, rfl⟩, fun h => ⟨h, rfl⟩, fun _ h => h, fun _ h => h, ?_, ?_, ?_, ?_⟩ <;> intros <;> grind
  | datagram t =>
    dsimp only [Startup.step] at hs
    split at hs
    · rename_i n ht
      cases hs
      exact .one ht rfl (.inr ⟨_, _, _, _, rfl, rfl, Nat.le_refl _, nofun⟩) (fun h => ⟨h, rfl⟩) (fun h => ⟨h, rfl⟩)
        (fun _ h => h) (fun _ h => h)
    · cases hs
  | go t =>
    have h1 := h.crate; have h2 := h.rayon; have h3 := h.pool
    dsimp only [Startup.step] at hs
    split at hs
    · rename_i c ht
      split at hs <;> cases hs <;>
        refine .one ht rfl (.inl ⟨_, _, _, rfl, rfl, fun _ => nofun⟩) ?_ ?_ ?_ ?_ <;> dsimp only [Startup.put] <;> grind
    · rename_i c ht
      split at hs <;> cases hs <;>
        refine .one ht rfl (.inl ⟨_, _, _, rfl, rfl, fun _ => nofun⟩) ?_ ?_ ?_ ?_ <;> dsimp only [Startup.put] <;> grind
    · rename_i n ht
      split at hs
      · cases hs
        refine .one ht rfl (.inr ⟨_, _, _, _, rfl, rfl, by omega, nofun⟩) ?_ ?_ ?_ ?_ <;> dsimp only [Startup.put] <;> grind
      · cases hs
      · split at hs <;> cases hs <;>
          refine .one ht rfl (.inr ⟨_, _, _, _, rfl, rfl, by omega, nofun⟩) ?_ ?_ ?_ ?_ <;> dsimp only [Startup.put] <;> grind
      · cases hs
        refine .one ht rfl (.inr ⟨_, _, _, _, rfl, rfl, by omega, nofun⟩) ?_ ?_ ?_ ?_ <;> dsimp only [Startup.put] <;> grind
    · cases hs
  | built t works =>
    dsimp only [Startup.step] at hs
    split at hs
    · rename_i c ht
      obtain ⟨-, -, -, f, -⟩ := h.users _ _ ht
      split at hs <;> cases hs <;>
        refine .one ht rfl (.inl ⟨_, _, _, rfl, rfl, fun _ => nofun⟩) ?_ ?_ ?_ ?_ <;> dsimp only [Startup.put] <;> grind
    · rename_i n ht
      obtain ⟨-, -, -, f, -⟩ := h.users _ _ ht
      split at hs <;> cases hs <;>
        refine .one ht rfl (.inr ⟨_, _, _, _, rfl, rfl, by omega, nofun⟩) ?_ ?_ ?_ ?_ <;> dsimp only [Startup.put] <;> grind
    · cases hs

theorem Startup.Ok.later {H : RayonHost} {s s' : Startup} {xs : List StartupLabel} (h : s.Ok H)
    (hs : s.run H xs = some s') : s.Later s' := by
  induction xs generalizing s with
  | nil => cases hs; exact .refl _
  | cons x xs ih =>
    unfold Startup.run at hs
    split at hs
    · rename_i s1 h1
      exact (h.later1 h1).trans (ih (h.step h1) hs)
    · cases hs

theorem Startup.run_append {H : RayonHost} {s s' s'' : Startup} {xs ys : List StartupLabel} (h : s.run H xs = some s')
    (h' : s'.run H ys = some s'') : s.run H (xs ++ ys) = some s'' := by
  induction xs generalizing s with
  | nil => cases h; exact h'
  | cons x xs ih =>
    simp only [Startup.run, List.cons_append] at h ⊢
    split at h
    · exact ih h
    · cases h

/-- **C112.**  Once there is a pool, no listening thread is ever killed by the lack of one; and as long as there is
none, no datagram has ever been handed over.  So in no process it happens that some hand-overs work and some kill their
thread. -/
theorem C112 (H : RayonHost) (xs : List StartupLabel) (s : Startup) (h : Startup.init.run H xs = some s) :
    (s.pool ≠ none → s.AllAlive) ∧ (s.pool = none → s.NoneHanded) := by
  have hok := Startup.Ok.reached h
  refine ⟨fun hp u hu => ?_, fun hp u hu => ?_⟩ <;> obtain ⟨i, hi⟩ := List.getElem?_of_mem hu <;>
    have f := hok.users i u hi <;> rcases u with ⟨c, p⟩ | ⟨n, p⟩ <;> cases p <;>
    simp only [Startup.Fits, PoolUser.isDead, PoolUser.handed] at * <;> grind

/-- **C112, its size.**  The pool is set up once and never changes. -/
theorem C112_stays (H : RayonHost) (xs ys : List StartupLabel) (s s' : Startup) (h : Startup.init.run H xs = some s)
    (h' : s.run H ys = some s') (n : Nat) (hn : s.pool = some n) : s'.pool = some n := by
  have hok := Startup.Ok.reached h
  rw [((hok.later h').complete (hok.pool (by rw [hn]; nofun))).2, hn]

theorem Startup.Ok.firstEnded {H : RayonHost} {s : Startup} (h : s.Ok H) (hc : s.crate = .complete ∨ s.crate = .poisoned) :
    ∃ i r, s.first = some i ∧ s.EndedAt i r := by
  cases hf : s.first with
  | none => have := h.crate.mpr hf; rw [this] at hc; rcases hc with hc | hc <;> cases hc
  | some i =>
    obtain ⟨c, p, hp⟩ := h.first i hf
    have f := h.users i _ hp
    refine ⟨i, ?_⟩
    cases p <;> simp only [Startup.Fits] at f
    · exact absurd hf f.1
    · rw [f.2.1] at hc; rcases hc with hc | hc <;> cases hc
    · rw [f.2.2.1] at hc; rcases hc with hc | hc <;> cases hc
    · exact ⟨_, rfl, c, hp⟩

theorem Startup.Ok.anyEnded {H : RayonHost} {s : Startup} (h : s.Ok H) {i : Nat} {r : SetUp} (he : s.EndedAt i r) :
    s.crate = .complete ∨ s.crate = .poisoned := by
  obtain ⟨c, hc⟩ := he
  have f := h.users i _ hc
  simp only [Startup.Fits] at f
  grind

/-- **C112, whose pool it is.**  If there is a pool, then either a call of `IPv8::new` set it up, with the number of threads
of its configuration, and all calls that have ended are past the pool; or rayon did by itself, because a datagram came first, with the
standard number of threads, and then of the calls that have ended, if any, exactly one was told that the pool exists already, and the
others are past the pool. -/
theorem C112_whose (H : RayonHost) (xs : List StartupLabel) (s : Startup) (h : Startup.init.run H xs = some s) (n : Nat)
    (hn : s.pool = some n) :
    (∃ (i : Nat) (c : Config), s.users[i]? = some (.call c (.ended .ok)) ∧ n = H.size c.threadcount ∧
      ∀ j r, s.EndedAt j r → r = .ok) ∨
    (n = H.size 0 ∧ (∃ u ∈ s.users, 0 < u.handed) ∧
      ∀ j r, s.EndedAt j r → ∃ i, s.EndedAt i .already ∧ s.OthersEnded i .ok) := by
  have hok := Startup.Ok.reached h
  have hr := hok.pool (by rw [hn]; nofun)
  cases hb : s.builder with
  | none => rw [hok.rayon.mpr hb] at hr; cases hr
  | some i =>
    obtain ⟨u, hu⟩ := hok.builder i hb
    have f := hok.users i u hu
    rcases u with ⟨c, p⟩ | ⟨m, p⟩
    · left
      have hp : p = .ended .ok ∧ n = H.size c.threadcount ∧ s.first = some i ∧ s.crate = .complete := by
        cases p <;> simp only [Startup.Fits] at f <;> grind
      obtain ⟨rfl, h1, h2, h3⟩ := hp
      refine ⟨i, c, hu, h1, ?_⟩
      rintro j r ⟨c', hj⟩
      have g := hok.users j _ hj
      simp only [Startup.Fits] at g
      grind
    · right
      have hp : 0 < m ∧ n = H.size 0 ∧ s.first ≠ some i := by
        cases p <;> simp only [Startup.Fits] at f <;> grind
      refine ⟨hp.2.1, ⟨_, List.mem_of_getElem? hu, hp.1⟩, fun j r he => ?_⟩
      obtain ⟨k, r', hk, c, hkc⟩ := hok.firstEnded (hok.anyEnded he)
      have g := hok.users k _ hkc
      have hne : i ≠ k := by rintro rfl; exact hp.2.2 hk
      simp only [Startup.Fits] at g
      have hr' : r' = .already ∧ s.crate = .complete := by grind
      refine ⟨k, ⟨c, hr'.1 ▸ hkc⟩, ?_⟩
      rintro j' r'' ⟨c', hj⟩ hjk
      have g' := hok.users j' _ hj
      simp only [Startup.Fits] at g'
      grind

/-- **C112, how many threads.**  The pool has at least one thread: as many as a call of `IPv8::new` asked for, or, if it
asked for 0 or nobody asked, the standard number; in any case not more than rayon allows. -/
theorem C112_threads (H : RayonHost) (hs : 1 ≤ H.standard) (hl : 1 ≤ H.limit) (xs : List StartupLabel) (s : Startup)
    (h : Startup.init.run H xs = some s) (n : Nat) (hn : s.pool = some n) :
    1 ≤ n ∧ n ≤ H.limit ∧ (n = min H.standard H.limit ∨
      ∃ (i : Nat) (c : Config), s.users[i]? = some (.call c (.ended .ok)) ∧ 0 < c.threadcount ∧
        n = min c.threadcount H.limit) := by
  rcases C112_whose H xs s h n hn with ⟨i, c, hi, rfl, -⟩ | ⟨rfl, -, -⟩
  · unfold RayonHost.size
    split
    · exact ⟨by omega, by omega, .inl rfl⟩
    · exact ⟨by omega, by omega, .inr ⟨i, c, hi, by omega, rfl⟩⟩
  · have e : H.size 0 = min H.standard H.limit := rfl
    rw [e]
    exact ⟨by omega, by omega, .inl rfl⟩

/-- **C112, as configured.**  If the calls of `IPv8::new` that have ended (at least one) had no complaint, then the pool has the
number of threads that one of these calls was configured with, and from then on no call ends otherwise and no hand-over
fails. -/
theorem C112_configured (H : RayonHost) (xs ys : List StartupLabel) (s s' : Startup)
    (h : Startup.init.run H xs = some s) (i : Nat) (hi : s.EndedAt i .ok)
    (hall : ∀ j r, s.EndedAt j r → r = .ok) (h' : s.run H ys = some s') :
    (∃ (i : Nat) (c : Config), s.users[i]? = some (.call c (.ended .ok)) ∧ s'.pool = some (H.size c.threadcount)) ∧
    (∀ j r, s'.EndedAt j r → r = .ok) ∧ s'.AllAlive := by
  have hok := Startup.Ok.reached h
  have hrun : Startup.init.run H (xs ++ ys) = some s' := Startup.run_append h h'
  obtain ⟨k, r, hk, c, hkc⟩ := hok.firstEnded (hok.anyEnded hi)
  obtain rfl := hall k r ⟨c, hkc⟩
  have g := hok.users k _ hkc
  simp only [Startup.Fits] at g
  have g' : s.pool = some (H.size c.threadcount) ∧ s.builder = some k := by grind
  have hp : s'.pool = some (H.size c.threadcount) := C112_stays H xs ys s s' h h' _ g'.1
  refine ⟨⟨k, c, hkc, hp⟩, ?_, (C112 H _ s' hrun).1 (by rw [hp]; nofun)⟩
  have hok' := Startup.Ok.reached hrun
  have later := hok.later h'
  have hkc' := later.ended k c .ok hkc
  have gk := hok'.users k _ hkc'
  have hb := later.builder k g'.2
  have hf := later.first k hk
  rintro j r' ⟨c', hj⟩
  have gj := hok'.users j _ hj
  simp only [Startup.Fits] at gj gk
  grind

/-- **C112, too late.**  If a datagram has been handed over before `IPv8::new` is called for the first time, the pool has the
standard number of threads for ever, whatever configurations say; of the calls that end, exactly one fails, because the pool
exists already; the others are past the pool. -/
theorem C112_late (H : RayonHost) (xs ys : List StartupLabel) (s s' : Startup)
    (h : Startup.init.run H xs = some s) (hc : s.NoCalls) (hd : ¬ s.NoneHanded) (h' : s.run H ys = some s') :
    s'.pool = some (H.size 0) ∧ s'.AllAlive ∧
    ∀ j r, s'.EndedAt j r → ∃ i, s'.EndedAt i .already ∧ s'.OthersEnded i .ok := by
  have hok := Startup.Ok.reached h
  have hrun : Startup.init.run H (xs ++ ys) = some s' := Startup.run_append h h'
  have hp : s.pool ≠ none := fun e => hd ((C112 H xs s h).2 e)
  obtain ⟨n, hn⟩ := Option.ne_none_iff_exists'.mp hp
  have hb : ∃ i m p, s.builder = some i ∧ s.users[i]? = some (.thread m p) := by
    cases hb : s.builder with
    | none => have := hok.pool hp; rw [hok.rayon.mpr hb] at this; cases this
    | some i =>
      obtain ⟨u, hu⟩ := hok.builder i hb
      rcases u with ⟨c, p⟩ | ⟨m, p⟩
      · exact absurd (hc _ (List.mem_of_getElem? hu)) (by simp [PoolUser.isCall])
      · exact ⟨i, m, p, rfl, hu⟩
  have hn' := C112_stays H xs ys s s' h h' n hn
  obtain ⟨i, m, p, h1, h2⟩ := hb
  have later := hok.later h'
  have h3 := later.builder i h1
  obtain ⟨m', p', -, h4⟩ := later.thread i m p h2
  have hok' := Startup.Ok.reached hrun
  rcases C112_whose H _ s' hrun n hn' with ⟨k, c, hk, -, hall⟩ | ⟨rfl, -, hall⟩
  · exfalso
    obtain ⟨k', r, hf, c', hk'⟩ := hok'.firstEnded (hok'.anyEnded ⟨c, hk⟩)
    obtain rfl := hall k' r ⟨c', hk'⟩
    have g := hok'.users k' _ hk'
    simp only [Startup.Fits] at g
    grind
  · exact ⟨hn', (C112 H _ s' hrun).1 (by rw [hn']; nofun), hall⟩

/-- What comes to the same: from now on nobody gets a datagram handed over. -/
theorem Startup.dies {H : RayonHost} {s : Startup} (hp : s.pool = none)
    (hr : s.rayon = .complete ∨ s.rayon = .poisoned) {t n : Nat} (ht : s.users[t]? = some (.thread n .asks)) :
    s.step H (.go t) = some (s.put t (.thread n .dead)) := by
  dsimp only [Startup.step]
  rw [ht]
  rcases hr with hr | hr <;> simp [hr, hp]

/-- **C112, broken.**  If the call of `IPv8::new` that sets up the pool is told that this failed, then all other calls get past
the pool without complaint, at any time; but there will never be a pool: no listening thread of this process ever hands
over a datagram, and the first one it gets kills it. -/
theorem C112_broken (H : RayonHost) (xs ys : List StartupLabel) (s s' : Startup)
    (h : Startup.init.run H xs = some s) (i : Nat) (hi : s.EndedAt i .failed) (h' : s.run H ys = some s') :
    s'.pool = none ∧ s'.NoneHanded ∧ s'.OthersEnded i .ok ∧
    ∀ t n : Nat, s'.users[t]? = some (.thread n .asks) → s'.step H (.go t) = some (s'.put t (.thread n .dead)) := by
  have hok := Startup.Ok.reached h
  have hrun : Startup.init.run H (xs ++ ys) = some s' := Startup.run_append h h'
  have hok' := Startup.Ok.reached hrun
  obtain ⟨c, hc⟩ := hi
  have hc' := (hok.later h').ended i c .failed hc
  have g := hok'.users i _ hc'
  simp only [Startup.Fits] at g
  have g' : s'.pool = none ∧ s'.rayon = .complete ∧ s'.first = some i ∧ s'.crate = .complete ∧ s'.builder = some i := by
    grind
  obtain ⟨g1, g2, g3, g4, g5⟩ := g'
  refine ⟨g1, (C112 H _ s' hrun).2 g1, ?_, fun t n ht => Startup.dies g1 (.inl g2) ht⟩
  rintro j r ⟨c', hj⟩ hji
  have gj := hok'.users j _ hj
  simp only [Startup.Fits] at gj
  grind

/-- **C112, broken by itself.**  If a datagram came before the first call and rayon could not set up its pool, that
thread is dead, and so will be all others that get a datagram.  All calls of `IPv8::new` panic, or, with other versions
of rayon, one fails and the others get past the pool without complaint. -/
theorem C112_broken_late (H : RayonHost) (xs ys : List StartupLabel) (s s' : Startup)
    (h : Startup.init.run H xs = some s) (hc : s.NoCalls) (hd : ¬ s.AllAlive) (h' : s.run H ys = some s') :
    s'.pool = none ∧ s'.NoneHanded ∧
    (∀ t n : Nat, s'.users[t]? = some (.thread n .asks) → s'.step H (.go t) = some (s'.put t (.thread n .dead))) ∧
    ∀ j r, s'.EndedAt j r → if H.poisons then r = .panicked else
      ∃ i, s'.EndedAt i .already ∧ s'.OthersEnded i .ok := by
  have hok := Startup.Ok.reached h
  have hrun : Startup.init.run H (xs ++ ys) = some s' := Startup.run_append h h'
  have hok' := Startup.Ok.reached hrun
  have later := hok.later h'
  have hp : s.pool = none := Classical.byContradiction fun e => hd ((C112 H xs s h).1 e)
  have hdead : ∃ (t n : Nat), s.users[t]? = some (.thread n .dead) := by
    refine Classical.byContradiction fun hno => hd fun u hu => ?_
    obtain ⟨t, ht⟩ := List.getElem?_of_mem hu
    rcases u with ⟨c, p⟩ | ⟨n, p⟩
    · rfl
    · cases p
      · rfl
      · rfl
      · rfl
      · exact absurd ⟨t, n, ht⟩ hno
  obtain ⟨t, n, ht⟩ := hdead
  obtain ⟨-, -, -, hr, -⟩ := hok.users t _ ht
  have hb : ∃ i m, s.builder = some i ∧ s.users[i]? = some (.thread m .dead) := by
    cases hb : s.builder with
    | none => rw [hok.rayon.mpr hb] at hr; rcases hr with hr | hr <;> cases hr
    | some i =>
      obtain ⟨u, hu⟩ := hok.builder i hb
      rcases u with ⟨c, p⟩ | ⟨m, p⟩
      · exact absurd (hc _ (List.mem_of_getElem? hu)) (by simp [PoolUser.isCall])
      · have f := hok.users i _ hu
        cases p <;> simp only [Startup.Fits] at f
        · grind
        · grind
        · grind
        · exact ⟨i, m, rfl, hu⟩
  obtain ⟨i, m, h1, h2⟩ := hb
  have h1' := later.builder i h1
  have h2' := later.dead i m h2
  have fi := hok'.users i _ h2'
  simp only [Startup.Fits] at fi
  obtain ⟨f1, -, f2, f3, f4⟩ := fi
  refine ⟨f2, (C112 H _ s' hrun).2 f2, fun t n ht => Startup.dies f2 f3 ht, fun j r he => ?_⟩
  obtain ⟨k, r', hk, c, hkc⟩ := hok'.firstEnded (hok'.anyEnded he)
  have g := hok'.users k _ hkc
  have hne : i ≠ k := by rintro rfl; exact f1 hk
  have f5 := f4 h1'
  simp only [Startup.Fits] at g
  by_cases hpo : H.poisons = true
  · rw [if_pos hpo] at f5 ⊢
    obtain ⟨c', hj⟩ := he
    have gj := hok'.users j _ hj
    simp only [Startup.Fits] at gj
    grind
  · rw [if_neg hpo] at f5 ⊢
    have hr' : r' = .already ∧ s'.crate = .complete := by grind
    refine ⟨k, ⟨c, hr'.1 ▸ hkc⟩, ?_⟩
    rintro j' r'' ⟨c', hj⟩ hjk
    have g' := hok'.users j' _ hj
    simp only [Startup.Fits] at g'
    grind

/-- **C112, again.**  Whatever the reason was that a call failed: trying again gets past the pool. -/
theorem C112_again (H : RayonHost) (xs ys : List StartupLabel) (s s' : Startup)
    (h : Startup.init.run H xs = some s) (i : Nat) (hi : s.EndedAt i .already ∨ s.EndedAt i .failed)
    (h' : s.run H ys = some s') : s'.OthersEnded i .ok := by
  have hok := Startup.Ok.reached h
  have hrun : Startup.init.run H (xs ++ ys) = some s' := Startup.run_append h h'
  have hok' := Startup.Ok.reached hrun
  have g : s'.first = some i ∧ s'.crate = .complete := by
    rcases hi with ⟨c, hc⟩ | ⟨c, hc⟩ <;> have hc' := (hok.later h').ended i c _ hc <;> have g := hok'.users i _ hc' <;>
      simp only [Startup.Fits] at g <;> grind
  rintro j r ⟨c', hj⟩ hji
  have gj := hok'.users j _ hj
  simp only [Startup.Fits] at gj
  grind

/-- **C112, a race.**  In the same situation — a listening thread has been started, and somebody calls `IPv8::new` for the
first time — it depends on whether a datagram comes before, or during the call at the latest, whether the call fails. -/
theorem C112_race (H : RayonHost) (c : Config) :
    (∃ s, Startup.init.run H [.listen, .call c, .go 1, .go 1, .built 1 true, .datagram 0, .go 0] = some s ∧
      s.EndedAt 1 .ok ∧ s.pool = some (H.size c.threadcount)) ∧
    (∃ s, Startup.init.run H [.listen, .call c, .datagram 0, .go 0, .go 1, .built 0 true, .go 1] = some s ∧
      s.EndedAt 1 .already ∧ s.pool = some (H.size 0)) :=
  ⟨⟨_, rfl, ⟨c, rfl⟩, rfl⟩, ⟨_, rfl, ⟨c, rfl⟩, rfl⟩⟩

/-- How many steps somebody has to make at most before it is at its end or waits for a datagram. -/
def PoolUser.work : PoolUser → Nat
  | .call _ .atOnce => 3
  | .call _ .inside => 2
  | .call _ .building => 1
  | .thread _ .asks => 2
  | .thread _ .building => 1
  | _ => 0

theorem startup_sum_set {f : PoolUser → Nat} {xs : List PoolUser} {t : Nat} {u u' : PoolUser} (h : xs[t]? = some u) :
    ((xs.set t u').map f).sum + f u = (xs.map f).sum + f u' := by
  induction xs generalizing t with
  | nil => cases h
  | cons x xs ih =>
    cases t with
    | zero => cases h; simp; omega
    | succ t =>
      have := ih (t := t) h
      simp at this ⊢
      omega

/-- **C112, nobody is stuck.**  As long as somebody has not got through, somebody can get on: the two `Once`s never block each other.
Everybody needs three steps at most. -/
theorem C112_through (H : RayonHost) (xs : List StartupLabel) (s : Startup) (h : Startup.init.run H xs = some s) :
    ((∃ u ∈ s.users, u.isBusy = true) → ∃ x s', x.ofBusy = true ∧ s.step H x = some s') ∧
    ∀ ys s', s.run H ys = some s' → (∀ y ∈ ys, y.ofBusy = true) → ys.length ≤ 3 * s.users.length := by
  have hok := Startup.Ok.reached h
  constructor
  · rintro ⟨u, hu, hb⟩
    obtain ⟨i, hi⟩ := List.getElem?_of_mem hu
    have runs : ∀ j, s.builder = some j → s.rayon = .running → ∃ x s', StartupLabel.ofBusy x = true ∧ s.step H x = some s' := by
      intro j hj hr
      obtain ⟨v, hv⟩ := hok.builder j hj
      have f := hok.users j v hv
      have hp : s.pool = none := Classical.byContradiction fun e => by have := hok.pool e; rw [hr] at this; cases this
      rcases v with ⟨c, p⟩ | ⟨n, p⟩ <;> cases p <;> simp only [Startup.Fits] at f
      · exact absurd hj f.2
      · exact absurd hj f.2.2
      · exact ⟨.built j true, _, rfl, by simp only [Startup.step, hv]; rfl⟩
      · grind
      · grind
      · grind
      · exact ⟨.built j true, _, rfl, by simp only [Startup.step, hv]; rfl⟩
      · grind
    have inside : s.rayon = .running → ∃ x s', StartupLabel.ofBusy x = true ∧ s.step H x = some s' := by
      intro hr
      cases hb : s.builder with
      | none => rw [hok.rayon.mpr hb] at hr; cases hr
      | some j => exact runs j hb hr
    have isIn : ∀ (j : Nat) c, s.users[j]? = some (.call c .inside) →
        ∃ x s', StartupLabel.ofBusy x = true ∧ s.step H x = some s' := by
      intro j c hj
      cases hr : s.rayon with
      | fresh => exact ⟨.go j, _, rfl, by simp only [Startup.step, hj, hr]; rfl⟩
      | running => exact inside hr
      | complete => exact ⟨.go j, _, rfl, by simp only [Startup.step, hj, hr]; rfl⟩
      | poisoned => exact ⟨.go j, _, rfl, by simp only [Startup.step, hj, hr]; rfl⟩
    rcases u with ⟨c, p⟩ | ⟨n, p⟩ <;> cases p <;> try cases hb
    · cases hc : s.crate with
      | fresh => exact ⟨.go i, _, rfl, by simp only [Startup.step, hi, hc]; rfl⟩
      | running =>
        cases hf : s.first with
        | none => rw [hok.crate.mpr hf] at hc; cases hc
        | some j =>
          obtain ⟨c', p, hp⟩ := hok.first j hf
          have f := hok.users j _ hp
          cases p <;> simp only [Startup.Fits] at f
          · exact absurd hf f.1
          · exact isIn j c' hp
          · exact inside f.2.2.2.1
          · grind
      | complete => exact ⟨.go i, _, rfl, by simp only [Startup.step, hi, hc]; rfl⟩
      | poisoned => exact ⟨.go i, _, rfl, by simp only [Startup.step, hi, hc]; rfl⟩
    · exact isIn i c hi
    · exact inside (hok.users i _ hi).2.2.2.1
    · cases hr : s.rayon with
      | fresh => exact ⟨.go i, _, rfl, by simp only [Startup.step, hi, hr]; rfl⟩
      | running => exact inside hr
      | complete =>
        cases hp : s.pool with
        | none => exact ⟨.go i, _, rfl, by simp only [Startup.step, hi, hr, hp]; rfl⟩
        | some k => exact ⟨.go i, _, rfl, by simp only [Startup.step, hi, hr, hp]; rfl⟩
      | poisoned => exact ⟨.go i, _, rfl, by simp only [Startup.step, hi, hr]; rfl⟩
    · exact inside (hok.users i _ hi).2.2.2.1
  · have step1 : ∀ (s : Startup) y s', s.step H y = some s' → y.ofBusy = true →
        (s'.users.map PoolUser.work).sum + 1 ≤ (s.users.map PoolUser.work).sum := by
      intro s y s' hs hy
      cases y with
      | call c => cases hy
      | listen => cases hy
      | datagram t => cases hy
      | go t =>
        dsimp only [Startup.step] at hs
        split at hs
        · rename_i c ht
          split at hs <;> cases hs
          all_goals
            have := fun u' => startup_sum_set (f := PoolUser.work) (u' := u') ht
            simp only [Startup.put, PoolUser.work] at this ⊢
            first
              | (have := this (.call c .inside); simp only at this; omega)
              | (have := this (.call c (.ended .ok)); simp only at this; omega)
              | (have := this (.call c (.ended .panicked)); simp only at this; omega)
        · rename_i c ht
          split at hs <;> cases hs
          all_goals
            have := fun u' => startup_sum_set (f := PoolUser.work) (u' := u') ht
            simp only [Startup.put, PoolUser.work] at this ⊢
            first
              | (have := this (.call c .building); simp only at this; omega)
              | (have := this (.call c (.ended .already)); simp only at this; omega)
              | (have := this (.call c (.ended .panicked)); simp only at this; omega)
        · rename_i n ht
          have key := fun u' => startup_sum_set (f := PoolUser.work) (u' := u') ht
          simp only [PoolUser.work] at key
          split at hs
          · cases hs
            have := key (.thread n .building)
            simp only [Startup.put] at this ⊢; omega
          · cases hs
          · split at hs <;> cases hs
            · have := key (.thread (n + 1) .idle)
              simp only [Startup.put] at this ⊢; omega
            · have := key (.thread n .dead)
              simp only [Startup.put] at this ⊢; omega
          · cases hs
            have := key (.thread n .dead)
            simp only [Startup.put] at this ⊢; omega
        · cases hs
      | built t works =>
        dsimp only [Startup.step] at hs
        split at hs
        · rename_i c ht
          have key := fun u' => startup_sum_set (f := PoolUser.work) (u' := u') ht
          simp only [PoolUser.work] at key
          split at hs <;> cases hs
          · have := key (.call c (.ended .ok)); simp only [Startup.put] at this ⊢; omega
          · have := key (.call c (.ended .failed)); simp only [Startup.put] at this ⊢; omega
        · rename_i n ht
          have key := fun u' => startup_sum_set (f := PoolUser.work) (u' := u') ht
          simp only [PoolUser.work] at key
          split at hs <;> cases hs
          · have := key (.thread (n + 1) .idle); simp only [Startup.put] at this ⊢; omega
          · have := key (.thread n .dead); simp only [Startup.put] at this ⊢; omega
        · cases hs
    have all : ∀ ys (s : Startup) s', s.run H ys = some s' → (∀ y ∈ ys, y.ofBusy = true) →
        ys.length ≤ (s.users.map PoolUser.work).sum := by
      intro ys
      induction ys with
      | nil => intros; exact Nat.zero_le _
      | cons y ys ih =>
        intro s s' hs hy
        unfold Startup.run at hs
        split at hs
        · rename_i s1 h1
          have a := step1 s y s1 h1 (hy y List.mem_cons_self)
          have b := ih s1 s' hs fun z hz => hy z (List.mem_cons_of_mem _ hz)
          simp only [List.length_cons]; omega
        · cases hs
    have bound : ∀ us : List PoolUser, (us.map PoolUser.work).sum ≤ 3 * us.length := by
      intro us
      induction us with
      | nil => exact Nat.le_refl _
      | cons u us ih =>
        have : u.work ≤ 3 := by
          rcases u with ⟨c, p⟩ | ⟨n, p⟩ <;> cases p <;> simp [PoolUser.work]
        simp only [List.map_cons, List.sum_cons, List.length_cons]; omega
    intro ys s' hs hy
    exact Nat.le_trans (all ys s s' hs hy) (bound s.users)

theorem filterMap_set_some {α β : Type} {f : α → Option β} {xs : List α} {t : Nat} {u u' : α} {a b : β}
    (h : xs[t]? = some u) (ha : f u = some a) (hb : f u' = some b) :
    ∃ k : Nat, (xs.filterMap f)[k]? = some a ∧ (xs.set t u').filterMap f = (xs.filterMap f).set k b := by
  induction xs generalizing t with
  | nil => cases h
  | cons x xs ih =>
    cases t with
    | zero =>
      cases h
      exact ⟨0, by simp [ha], by simp [ha, hb]⟩
    | succ t =>
      obtain ⟨k, h1, h2⟩ := ih (t := t) h
      cases hx : f x with
      | none => exact ⟨k, by simp [hx, h1], by simp [hx, h2]⟩
      | some y => exact ⟨k + 1, by simp [hx, h1], by simp [hx, h2]⟩

theorem filterMap_set_none {α β : Type} {f : α → Option β} {xs : List α} {t : Nat} {u u' : α}
    (h : xs[t]? = some u) (ha : f u = none) (hb : f u' = none) :
    (xs.set t u').filterMap f = xs.filterMap f := by
  induction xs generalizing t with
  | nil => cases h
  | cons x xs ih =>
    cases t with
    | zero => cases h; simp [ha, hb]
    | succ t => simp only [List.set_cons_succ, List.filterMap_cons, ih (t := t) h]

/-- The two models agree about calls. -/
def Startup.Agrees (s : Startup) (p : Process) : Prop :=
  p.once = s.crate ∧ p.calls = s.users.filterMap PoolUser.asCall

theorem Startup.Agrees.step {H : RayonHost} (U : Udp) {s s' : Startup} {x : StartupLabel} {p : Process} (h : s.Agrees p)
    (hs : s.step H x = some s') : ∃ as p', p.run U as = some p' ∧ s'.Agrees p' := by
  obtain ⟨h1, h2⟩ := h
  -- a step of a call that is a step there
  have does : ∀ (t : Nat) (u u' : PoolUser) a b, s.users[t]? = some u → u.asCall = some a → u'.asCall = some b →
      s'.users = s.users.set t u' → (∀ k : Nat, p.calls[k]? = some a → ∃ l p', p.step U l = some p' ∧ p'.once = s'.crate ∧
        p'.calls = p.calls.set k b) → ∃ as p', p.run U as = some p' ∧ s'.Agrees p' := by
    intro t u u' a b ht ha hb e hl
    obtain ⟨k, k1, k2⟩ := filterMap_set_some (f := PoolUser.asCall) ht ha hb
    rw [← h2] at k1
    obtain ⟨l, p', l1, l2, l3⟩ := hl k k1
    exact ⟨[l], p', by simp only [Process.run, l1], l2, by rw [l3, e, k2, h2]⟩
  -- a step that is none there
  have same : ∀ (t : Nat) (u u' : PoolUser), s.users[t]? = some u → (u.asCall = none ∧ u'.asCall = none ∨
      ∃ a, u.asCall = some a ∧ u'.asCall = some a) → s'.users = s.users.set t u' → s'.crate = s.crate →
      ∃ as p', p.run U as = some p' ∧ s'.Agrees p' := by
    intro t u u' ht hu e ec
    refine ⟨[], p, rfl, by rw [h1, ec], ?_⟩
    rw [e]
    rcases hu with ⟨a, b⟩ | ⟨a, b, c⟩
    · rw [filterMap_set_none ht a b, h2]
    · obtain ⟨k, k1, k2⟩ := filterMap_set_some (f := PoolUser.asCall) ht b c
      rw [k2, h2]
      apply List.ext_getElem?
      intro i
      rw [List.getElem?_set]
      split
      · rename_i hk; subst hk
        have hlt := (List.getElem?_eq_some_iff.mp k1).1
        rw [if_pos hlt, k1]
      · rfl
  cases x with
  | call config =>
    cases hs
    exact ⟨[.call config], _, rfl, h1, by simp [h2, PoolUser.asCall]⟩
  | listen =>
    cases hs
    exact ⟨[], p, rfl, h1, by simp [h2, PoolUser.asCall]⟩
  | datagram t =>
    dsimp only [Startup.step] at hs
    split at hs
    · rename_i n ht
      cases hs
      exact same t _ (.thread n .asks) ht (.inl ⟨rfl, rfl⟩) rfl rfl
    · cases hs
  | go t =>
    dsimp only [Startup.step] at hs
    split at hs
    · rename_i c ht
      split at hs
      · rename_i hc
        cases hs
        exact does t _ (.call c .inside) _ _ ht rfl rfl rfl fun k hk =>
          ⟨.enter k, _, by simp only [Process.step, hk, h1, hc]; rfl, rfl, rfl⟩
      · cases hs
      · rename_i hc
        cases hs
        exact does t _ (.call c (.ended .ok)) _ _ ht rfl rfl rfl fun k hk =>
          ⟨.enter k, _, by simp only [Process.step, hk, h1, hc]; rfl, hc.symm, rfl⟩
      · rename_i hc
        cases hs
        exact does t _ (.call c (.ended .panicked)) _ _ ht rfl rfl rfl fun k hk =>
          ⟨.enter k, _, by simp only [Process.step, hk, h1, hc]; rfl, hc.symm, rfl⟩
    · rename_i c ht
      split at hs
      · cases hs
        exact same t _ (.call c .building) ht (.inr ⟨_, rfl, rfl⟩) rfl rfl
      · cases hs
      · cases hs
        exact does t _ (.call c (.ended .already)) _ _ ht rfl rfl rfl fun k hk =>
          ⟨.build k (.err (.custom "The global thread pool has already been initialized.")), _,
            by simp only [Process.step, hk]; rfl, rfl, rfl⟩
      · cases hs
        exact does t _ (.call c (.ended .panicked)) _ _ ht rfl rfl rfl fun k hk =>
          ⟨.build k .panic, _, by simp only [Process.step, hk]; rfl, rfl, rfl⟩
    · rename_i n ht
      split at hs
      · cases hs; exact same t _ (.thread n .building) ht (.inl ⟨rfl, rfl⟩) rfl rfl
      · cases hs
      · split at hs <;> cases hs
        · exact same t _ (.thread (n + 1) .idle) ht (.inl ⟨rfl, rfl⟩) rfl rfl
        · exact same t _ (.thread n .dead) ht (.inl ⟨rfl, rfl⟩) rfl rfl
      · cases hs; exact same t _ (.thread n .dead) ht (.inl ⟨rfl, rfl⟩) rfl rfl
    · cases hs
  | built t works =>
    dsimp only [Startup.step] at hs
    split at hs
    · rename_i c ht
      split at hs <;> cases hs
      · exact does t _ (.call c (.ended .ok)) _ _ ht rfl rfl rfl fun k hk =>
          ⟨.build k (.ok ()), _, by simp only [Process.step, hk]; rfl, rfl, rfl⟩
      · exact does t _ (.call c (.ended .failed)) _ _ ht rfl rfl rfl fun k hk =>
          ⟨.build k (.err (.custom "threads could not be started")), _, by simp only [Process.step, hk]; rfl, rfl, rfl⟩
    · rename_i n ht
      split at hs <;> cases hs
      · exact same t _ (.thread (n + 1) .idle) ht (.inl ⟨rfl, rfl⟩) rfl rfl
      · exact same t _ (.thread n .dead) ht (.inl ⟨rfl, rfl⟩) rfl rfl
    · cases hs

/-- **C112, the same calls.**  Everything that calls of `IPv8::new` do here, they can do in the process of C59, where the
pool builder answers as it likes; so what is proved there for all answers holds here. -/
theorem C112_calls (H : RayonHost) (U : Udp) (xs : List StartupLabel) (s : Startup)
    (h : Startup.init.run H xs = some s) :
    ∃ as p, Process.init.run U as = some p ∧ p.once = s.crate ∧ p.calls = s.users.filterMap PoolUser.asCall := by
  have go : ∀ (xs : List StartupLabel) (s s' : Startup) (p : Process), s.Agrees p → s.run H xs = some s' →
      ∃ as p', p.run U as = some p' ∧ s'.Agrees p' := by
    intro xs
    induction xs with
    | nil => intro s s' p ha hs; cases hs; exact ⟨[], p, rfl, ha⟩
    | cons x xs ih =>
      intro s s' p ha hs
      unfold Startup.run at hs
      split at hs
      · rename_i s1 h1
        obtain ⟨as, p1, a1, a2⟩ := ha.step U h1
        obtain ⟨bs, p2, b1, b2⟩ := ih s1 s' p1 a2 hs
        refine ⟨as ++ bs, p2, ?_, b2⟩
        clear ha a2 b2
        induction as generalizing p with
        | nil => cases a1; exact b1
        | cons a as ih =>
          simp only [Process.run, List.cons_append] at a1 ⊢
          split at a1
          · exact ih _ a1
          · cases a1
      · cases hs
  exact go xs Startup.init s Process.init ⟨rfl, rfl⟩ h

/-! ## Cases for the theorems above -/

/-- Four cores, a version that does not poison. -/
def quadHost : RayonHost := ⟨4, 65535, false⟩

/-- Three threads are asked for. -/
def threeThreads : Config := { Config.default with threadcount := 3 }

-- C112, C112_stays, C112_whose, C112_threads, C112_configured: two calls at once and two listening threads that get datagrams later
example : ∃ s s', Startup.init.run quadHost [.call threeThreads, .call Config.default, .listen, .go 0, .go 0, .built 0 true,
      .go 1] = some s ∧ s.EndedAt 0 .ok ∧ (∀ j r, s.EndedAt j r → r = .ok) ∧ s.pool = some 3 ∧
    s.run quadHost [.datagram 2, .go 2, .listen, .datagram 3, .go 3, .datagram 2, .go 2] = some s' ∧
    s'.users[2]? = some (.thread 2 .idle) ∧ s'.pool = some 3 := by
  refine ⟨_, _, rfl, ⟨_, rfl⟩, ?_, rfl, rfl, rfl, rfl⟩
  · rintro j r ⟨c, hc⟩
    rcases j with _ | _ | _ | j
    · injection hc with hc; injection hc with _ hc; injection hc with hc; exact hc.symm
    · injection hc with hc; injection hc with _ hc; injection hc with hc; exact hc.symm
    · injection hc with hc; cases hc
    · cases hc

-- C112_late, C112_whose, C112_again: a datagram first
example : ∃ s s', Startup.init.run quadHost [.listen, .datagram 0, .go 0, .built 0 true] = some s ∧ s.NoCalls ∧
    ¬ s.NoneHanded ∧ s.run quadHost [.call threeThreads, .go 1, .go 1, .call threeThreads, .go 2] = some s' ∧
    s'.EndedAt 1 .already ∧ s'.EndedAt 2 .ok ∧ s'.pool = some 4 := by
  refine ⟨_, _, rfl, ?_, ?_, rfl, ⟨_, rfl⟩, ⟨_, rfl⟩, rfl⟩
  · intro u hu
    rcases hu with _ | ⟨_, hu⟩
    · rfl
    · cases hu
  · intro h
    exact absurd (h _ List.mem_cons_self) (by decide)

-- C112_broken, C112_again: the threads cannot be started; the second call and its listener do not know
example : ∃ s s', Startup.init.run quadHost [.call threeThreads, .go 0, .go 0, .built 0 false] = some s ∧
    s.EndedAt 0 .failed ∧ s.run quadHost [.call threeThreads, .go 1, .listen, .datagram 2] = some s' ∧ s'.EndedAt 1 .ok ∧
    s'.users[2]? = some (.thread 0 .asks) :=
  ⟨_, _, rfl, ⟨_, rfl⟩, rfl, ⟨_, rfl⟩, rfl⟩

-- C112_broken_late, with both versions
example (b : Bool) : ∃ s s', Startup.init.run ⟨4, 65535, b⟩ [.listen, .datagram 0, .go 0, .built 0 false] = some s ∧
    s.NoCalls ∧ ¬ s.AllAlive ∧ s.run ⟨4, 65535, b⟩ [.call threeThreads, .go 1, .go 1, .listen, .datagram 2] = some s' ∧
    s'.EndedAt 1 (if b then .panicked else .already) ∧ s'.users[2]? = some (.thread 0 .asks) := by
  cases b <;> refine ⟨_, _, rfl, ?_, ?_, rfl, ⟨_, rfl⟩, rfl⟩
  all_goals intro h
  all_goals first
    | exact absurd (h _ List.mem_cons_self) (by decide)
    | (intro hu; rcases hu with _ | ⟨_, hu⟩ <;> first | rfl | cases hu)

-- C112_through, C112_calls: somebody waits for two others
example : ∃ s, Startup.init.run quadHost [.listen, .datagram 0, .go 0, .call threeThreads, .go 1, .call threeThreads] =
    some s ∧ (∃ u ∈ s.users, u.isBusy = true) ∧ s.step quadHost (.go 2) = none ∧ s.step quadHost (.go 1) = none :=
  ⟨_, rfl, ⟨_, List.mem_cons_self, rfl⟩, rfl, rfl⟩

end Ipv8
