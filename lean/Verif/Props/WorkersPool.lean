import Verif.Props.Workers
/-!
# Property C89, continued: what was proved about the pool as a number of threads
-/

namespace Ipv8
open Spec

/-- What can be seen of a step when the pool is just a number of threads (`Model/Pool.lean`). -/
def TLabel.seen : TLabel → Option PoolLabel
  | .launch l q => some (.launch l q)
  | .io k x => (visible x).map (.at k)
  | .call _ k r _ => some (.at k (.start r))
  | .finish _ k r _ => some (.at k (.finish r))
  | .crash _ k r _ => some (.at k (.crash r))
  | .exit _ k => some (.at k .join)
  | _ => none

theorem TLabel.seen_eq {x : TLabel} {k : Nat} {y : RLabel} (h : jobsAt k [x] = [y]) :
    x.seen = (visible y).map (.at k) := by
  cases x <;> simp only [jobsAt, List.cons_ne_nil, List.nil_eq] at h <;> try (split at h <;> simp at h)
  all_goals
    rename_i he
    subst he
    subst h
    rfl

theorem TLabel.seen_none {x : TLabel} (h : ∀ k, jobsAt k [x] = []) (hl : ∀ l q, x ≠ .launch l q) : x.seen = none := by
  cases x with
  | launch l q => exact absurd rfl (hl l q)
  | io k y => have := h k; simp [jobsAt] at this
  | enter => rfl
  | take => rfl
  | resume => rfl
  | split w k => have := h k; simp [jobsAt] at this
  | begin w k => have := h k; simp [jobsAt] at this
  | call w k => have := h k; simp [jobsAt] at this
  | finish w k => have := h k; simp [jobsAt] at this
  | crash w k => have := h k; simp [jobsAt] at this
  | done w k => have := h k; simp [jobsAt] at this
  | exit w k => have := h k; simp [jobsAt] at this

theorem Sim.running_eq {l : Listener} {C : Nat → Prop} {s : RState} {n : NetState} (h : Sim l C s n) :
    n.running = s.calls := by
  have hp := h.phase
  unfold NetState.running RState.calls
  cases h1 : s.phase <;> cases h2 : n.phase <;> rw [h1, h2] at hp <;> simp only [PhaseSim] at hp ⊢
  rename_i k p a ts pan k' p' a' todo run pan'
  rw [hp.2.2.2.2.1.length_eq]
  clear hp h1
  induction ts with
  | nil => rfl
  | cons t ts ih =>
    rw [List.flatMap_cons, List.length_append, List.countP_cons, ih]
    cases t <;> simp only [Task.running, List.length_nil, List.length_cons, Bool.false_eq_true, if_false, if_true] <;> omega

theorem calls_call {l : Listener} {s s' : RState} {r hi : Nat} (h : l.rstep s (.call r hi) = some s') :
    s'.calls = s.calls + 1 := by
  obtain ⟨ts, e1, e2, e3, e4⟩ := RState.jobs_call h
  have := countP_take e2 Task.isCall
  rw [RState.calls_eq, RState.calls_eq, e1, e4]
  simp only [List.countP_cons, this, Task.isCall, Bool.false_eq_true, if_false, if_true]
  omega

/-- C89. Every execution of the pool threads is one of the pool as `Model/Pool.lean` has it, with the same packets,
calls, returns and panics in the same order: so everything proved there about what can be observed of all executions
(C61, C66, C71, …) holds of these. -/
theorem C89_refines (n : Nat) (ls : List TLabel) (s : Workers) (h : (Workers.mk n [] []).run ls = some s) :
    ∃ p, (Pool.mk n []).run (ls.filterMap TLabel.seen) = some p ∧ p.members.length = s.members.length ∧
      p.running = s.calls ∧
      ∀ (k : Nat) (m : RMember), s.members[k]? = some m → ∃ n, p.members[k]? = some ⟨m.listener, n⟩ ∧
        m.state.queue = n.queue ∧ m.state.ready = n.ready ∧ m.state.buffer = n.buffer ∧ m.state.trace = n.trace ∧
        samePlace m.state.phase n.phase := by
  have key : ∀ ls s, (Workers.mk n [] []).run ls = some s →
      ∃ p, (Pool.mk n []).run (ls.filterMap TLabel.seen) = some p ∧ p.members.length = s.members.length ∧
        p.running = s.calls ∧
        ∀ (k : Nat) (m : RMember), s.members[k]? = some m → ∃ n C, p.members[k]? = some ⟨m.listener, n⟩ ∧
          Sim m.listener C m.state n := by
    refine Workers.run_induction _ _ ⟨_, rfl, rfl, rfl, by simp⟩ ?_
    intro ls s x s' hr ⟨p, h1, h2, h3, h4⟩ hx
    have ht : p.threads = n := Pool.threads_run _ _ _ h1
    have hbound := C89_bound n (ls ++ [x]) s' (by rw [Workers.run_append, hr]; simp [Workers.run, hx])
    have happ : (ls ++ [x]).filterMap TLabel.seen = ls.filterMap TLabel.seen ++ x.seen.toList := by
      rw [List.filterMap_append]
      cases hs : x.seen <;> simp [hs]
    rw [happ, Pool.run_append, h1, Option.bind_some]
    obtain ⟨_, ⟨l, q, rfl, e⟩ | ⟨hl, e, hj⟩ | ⟨hl, k, y, m, t, e1, e2, e, hj, _⟩⟩ := Workers.step_members hx
    · refine ⟨{ p with members := p.members ++ [⟨l, l.init q⟩] }, rfl, by simp [e, h2], ?_, ?_⟩
      · simp only [Pool.running, Workers.calls, e, List.map_append, List.sum_append, List.map_cons, List.map_nil,
          List.sum_cons, List.sum_nil] at h3 ⊢
        have e1 : (l.init q).running = 0 := rfl
        have e2 : (l.rinit q).calls = 0 := rfl
        omega
      · intro k m hk
        rw [e] at hk
        by_cases hlt : k < s.members.length
        · rw [List.getElem?_append_left hlt] at hk
          obtain ⟨n', C, g1, g2⟩ := h4 k m hk
          exact ⟨n', C, by simp only; rw [List.getElem?_append_left (by omega), g1], g2⟩
        · have he : k = s.members.length := by
            have := (List.getElem?_eq_some_iff.mp hk).1
            simp at this
            omega
          subst he
          simp only [List.getElem?_concat_length, Option.some.injEq] at hk
          subst hk
          exact ⟨_, _, by simp [← h2], sim_init l q⟩
    · rw [TLabel.seen_none hj hl]
      exact ⟨p, rfl, by rw [e, h2], by rw [h3, Workers.calls, Workers.calls, e], by rw [e]; exact h4⟩
    · rw [TLabel.seen_eq hj]
      obtain ⟨n', C, g1, g2⟩ := h4 k m e1
      obtain ⟨queued, _, g3⟩ := C61 n _ p h1 k _ g1
      obtain ⟨n1, g4, g5⟩ := sim_step m.listener C m.state t n' y g2 (inv_run _ queued _ n' g3).phase e2
      have hlt : k < s.members.length := (List.getElem?_eq_some_iff.mp e1).1
      have hcalls := sum_set (fun m : RMember => m.state.calls) e1 ⟨m.listener, t⟩
      have hrun := sum_set (fun m : Member => m.state.running) g1 ⟨m.listener, n1⟩
      simp only at hcalls hrun
      have hrest : ({ p with members := p.members.set k ⟨m.listener, n1⟩ } : Pool).members.length = s'.members.length ∧
          ({ p with members := p.members.set k ⟨m.listener, n1⟩ } : Pool).running = s'.calls ∧
          ∀ (j : Nat) (mj : RMember), s'.members[j]? = some mj → ∃ n C,
            ({ p with members := p.members.set k ⟨m.listener, n1⟩ } : Pool).members[j]? = some ⟨mj.listener, n⟩ ∧
            Sim mj.listener C mj.state n := by
        refine ⟨by simp [e, h2], ?_, ?_⟩
        · have r1 := g2.running_eq
          have r2 := g5.running_eq
          simp only [Pool.running, Workers.calls, e] at h3 ⊢
          omega
        · intro j mj hmj
          rw [e] at hmj
          by_cases he : j = k
          · subst he
            rw [List.getElem?_set_self hlt] at hmj
            cases hmj
            exact ⟨n1, _, by simp only; rw [List.getElem?_set_self (by omega)], g5⟩
          · rw [List.getElem?_set_ne (Ne.symm he)] at hmj
            obtain ⟨n2, C2, f1, f2⟩ := h4 j mj hmj
            exact ⟨n2, C2, by simp only; rw [List.getElem?_set_ne (Ne.symm he), f1], f2⟩
      cases hv : visible y with
      | none =>
        rw [hv] at g4
        simp only [Option.toList_none, Listener.run, Option.some.injEq] at g4
        subst g4
        have hset : p.members.set k ⟨m.listener, n'⟩ = p.members := by
          obtain ⟨hk, he⟩ := List.getElem?_eq_some_iff.mp g1
          rw [← he]
          exact List.set_getElem_self hk
        rw [hset] at hrest
        exact ⟨p, rfl, hrest⟩
      | some z =>
        rw [hv] at g4
        simp only [Option.toList_some, Listener.run] at g4
        have hz : m.listener.step n' z = some n1 := by
          cases hz : m.listener.step n' z with
          | none => rw [hz] at g4; cases g4
          | some n2 => rw [hz] at g4; simpa using g4
        refine ⟨{ p with members := p.members.set k ⟨m.listener, n1⟩ }, ?_, hrest⟩
        have hthread : ¬ (z.needsThread = true ∧ p.threads ≤ p.running) := by
          rintro ⟨f1, f2⟩
          cases y <;> simp only [visible, Option.some.injEq, reduceCtorEq] at hv <;> subst hv <;>
            simp only [Label.needsThread, Bool.false_eq_true] at f1
          have := calls_call e2
          simp only [Workers.calls, e] at hbound h3
          omega
        simp only [Option.map_some, Option.toList_some, Pool.run, Pool.step, g1, hz, hthread, if_false]
  obtain ⟨p, h1, h2, h3, h4⟩ := key ls s h
  refine ⟨p, h1, h2, h3, fun k m hm => ?_⟩
  obtain ⟨n', C, g1, g2⟩ := h4 k m hm
  exact ⟨n', g1, g2.queue, g2.ready, g2.buffer, g2.trace, g2.phase.samePlace⟩

/-- A receiver call ends. -/
def TLabel.ends : TLabel → Bool
  | .finish _ _ _ _ => true
  | .crash _ _ _ _ => true
  | _ => false

/-- C89. If receiver calls occupy all threads of the pool and none of them ends, no receiver of any instance is called any
more, whatever arrives. -/
theorem C89_blocked (n : Nat) (ls more : List TLabel) (s s' : Workers) (h : (Workers.mk n [] []).run ls = some s)
    (hfull : s.calls = n) (h' : s.run more = some s') (hb : ∀ x ∈ more, x.ends = false) (k : Nat) (m' : RMember)
    (hm' : s'.members[k]? = some m') (r : Nat) :
    callsOf r m'.state.trace =
      match s.members[k]? with
      | some m => callsOf r m.state.trace
      | none => [] := by
  obtain ⟨p, h1, h2, h3, h4⟩ := C89_refines n ls s h
  obtain ⟨p', g1, g2, g3, g4⟩ := C89_refines n (ls ++ more) s' (by rw [Workers.run_append, h]; exact h')
  rw [List.filterMap_append, Pool.run_append, h1, Option.bind_some] at g1
  obtain ⟨n', f1, _, _, _, f2, _⟩ := g4 k m' hm'
  have ht : p.threads = n := Pool.threads_run _ _ _ h1
  have key := C61_blocked p p' _ g1 (by omega) (by
    intro x hx
    obtain ⟨y, hy, he⟩ := List.mem_filterMap.mp hx
    have hy' := hb y hy
    cases y <;> simp only [TLabel.seen, Option.some.injEq, reduceCtorEq, Option.map_eq_some_iff] at he <;>
      simp only [TLabel.ends, Bool.true_eq_false] at hy'
    case launch => subst he; rfl
    case call => subst he; rfl
    case exit => subst he; rfl
    case io j y =>
      obtain ⟨z, hz, rfl⟩ := he
      have hrun : ∃ a b, more = a ++ .io j y :: b := List.append_of_mem hy
      obtain ⟨a, b, rfl⟩ := hrun
      rw [Workers.run_append] at h'
      cases ha : s.run a with
      | none => rw [ha] at h'; cases h'
      | some sa =>
        rw [ha] at h'
        simp only [Option.bind_some, Workers.run, Workers.step] at h'
        cases y <;> simp only [visible, Option.some.injEq, reduceCtorEq] at hz <;>
          simp only [RLabel.outer, Bool.false_eq_true, if_false, reduceCtorEq] at h' <;> subst hz <;> rfl) k _ f1 r
  rw [f2]
  refine key.trans ?_
  cases hm : s.members[k]? with
  | none =>
    rw [List.getElem?_eq_none_iff] at hm
    rw [List.getElem?_eq_none (by omega)]
  | some m =>
    obtain ⟨n2, e1, _, _, _, e2, _⟩ := h4 k m hm
    rw [e1]
    simp only [e2]

/-! ## Cases for the theorems above -/

/-! ## Cases for the theorems above -/

/-- `C89_blocked`: the only thread of the pool is in a receiver; as long as that does not return, the other instance's receiver
is not called. -/
example (d : Datagram) (s : Workers) (h : (Workers.mk 1 [] []).run [.launch oneReceiver [d], .launch oneReceiver [d],
      .io 0 .pollEvent, .io 0 .recv, .enter 0 0, .take 0 0 0 1, .begin 0 0 0 1, .call 0 0 0 1] = some s)
    (more : List TLabel) (s' : Workers) (h' : s.run more = some s') (hb : ∀ x ∈ more, x.ends = false) (m' : RMember)
    (hm' : s'.members[1]? = some m') : callsOf 0 m'.state.trace = [] := by
  have hc : s.calls = 1 ∧ ∃ m, s.members[1]? = some m ∧ callsOf 0 m.state.trace = [] := by
    cases h
    exact ⟨rfl, _, rfl, rfl⟩
  obtain ⟨m, hm, he⟩ := hc.2
  have := C89_blocked 1 _ more s s' h hc.1 h' hb 1 m' hm' 0
  rw [hm] at this
  rw [this]
  exact he

/-- `C89_refines` and `C89_bound`: the execution of `C89_buried`. -/
example (d : Datagram) (s : Workers) (h : (Workers.mk 2 [] []).run (buriedRun d) = some s) :=
  And.intro (C89_refines 2 _ s h) (C89_bound 2 _ s h)

end Ipv8
