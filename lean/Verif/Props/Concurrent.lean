import Verif.Props.Machine
/-!
# C96, continued: how many receivers run at the same time in a whole system
-/

namespace Ipv8
open Spec

/-! ## Specification -/

/-- In a history: a receiver is called. -/
def NEv.called : NEv → Bool
  | .net (.call _ _ _) => true
  | _ => false

/-- A receiver's call is over: it returned or panicked. -/
def NEv.ended : NEv → Bool
  | .net (.ret _) => true
  | _ => false

/-- How often. -/
def calledIn (log : List (Nat × NEv)) : Nat := log.countP fun e => e.2.called

def endedIn (log : List (Nat × NEv)) : Nat := log.countP fun e => e.2.ended

/-! ## The invariant -/

/-- Events of threads that satisfy `P`. -/
def netP (P : Ev → Bool) : Nat × NEv → Bool
  | (_, .net e) => P e
  | _ => false

def Ev.isCall : Ev → Bool
  | .call _ _ _ => true
  | _ => false

def Ev.isRet : Ev → Bool
  | .ret _ => true
  | _ => false

theorem netP_called : (fun e : Nat × NEv => e.2.called) = netP Ev.isCall := by
  funext ⟨s, e⟩
  cases e with
  | net e => cases e <;> rfl
  | _ => rfl

theorem netP_ended : (fun e : Nat × NEv => e.2.ended) = netP Ev.isRet := by
  funext ⟨s, e⟩
  cases e with
  | net e => cases e <;> rfl
  | _ => rfl

theorem countP_netP (P : Ev → Bool) (s : Nat) (es : List Ev) :
    (es.map fun e => (s, NEv.net e)).countP (netP P) = es.countP P := by
  rw [List.countP_map]
  rfl

/-- The history of a process has what its listening threads did, and only stopped ones have dropped their sockets. -/
structure Machine.Counted (m : Machine) : Prop where
  net : ∀ P : Ev → Bool, m.log.countP (netP P) = (m.pool.members.map fun u => u.state.trace.countP P).sum
  covered : ∀ (j : Nat) (u : RMember), m.pool.members[j]? = some u →
    (∃ t ∈ m.threads, t.member = j) ∨ ∃ c, u.state.phase = .stopped c

theorem Machine.Counted.init (n : Nat) : (Machine.init n).Counted where
  net P := rfl
  covered j u h := by simp [Machine.init] at h

theorem sum_swap {α : Type} (f : α → Nat) : ∀ (L : List α) (j : Nat) (a b : α), L[j]? = some a →
    ((L.set j b).map f).sum + f a = (L.map f).sum + f b
  | [], j, a, b, h => by simp at h
  | x :: L, 0, a, b, h => by
    simp only [List.getElem?_cons_zero, Option.some.injEq] at h
    subst h
    simp only [List.set_cons_zero, List.map_cons, List.sum_cons]
    omega
  | x :: L, j + 1, a, b, h => by
    have := sum_swap f L j a b (by simpa using h)
    simp only [List.set_cons_succ, List.map_cons, List.sum_cons]
    omega

theorem rstep_trace {l : Listener} {s s' : RState} {y : RLabel} (h : l.rstep s y = some s') :
    s.trace <+: s'.trace ∧ ((∃ c, s.phase = .stopped c) → ∃ d, y = .arrive d) ∧
      ((∃ d, y = .arrive d) → s'.phase = s.phase ∧ s'.trace = s.trace) := by
  cases y <;> simp only [Listener.rstep] at h <;> (repeat' split at h) <;>
    simp only [Option.some.injEq, reduceCtorEq] at h <;> subst h <;> simp_all

theorem objects_quiet {N : Net} {n n' : Node} {x : NLabel} (hx : x.ofObjects = true) (h : n.step N x = some n')
    (P : Ev → Bool) : n'.log.countP (netP P) = n.log.countP (netP P) := by
  cases x <;> simp only [NLabel.ofObjects, Bool.false_eq_true] at hx <;> simp only [Node.step] at h <;>
    (repeat' split at h) <;> simp only [Option.some.injEq, reduceCtorEq] at h <;> subst h <;>
    simp [netP, List.countP_cons] <;> (split <;> simp [netP])

theorem counted_launch {m m' : Machine} (hm : m.Counted) (l : Listener) (q : List Datagram) (pool : Workers)
    (hp : m.pool.step (.launch l q) = some pool) (pt : PThread) (hpt : pt.member = m.pool.members.length)
    (h1 : m'.pool = pool) (h2 : m'.threads = m.threads ++ [pt])
    (h3 : ∀ P, m'.log.countP (netP P) = m.log.countP (netP P)) : m'.Counted := by
  simp only [Workers.step, Option.some.injEq] at hp
  subst hp
  constructor
  · intro P
    rw [h3, hm.net, h1]
    simp [Listener.rinit]
  · intro j u hu
    rw [h1] at hu
    simp only at hu
    by_cases hj : j < m.pool.members.length
    · rw [List.getElem?_append_left hj] at hu
      rcases hm.covered j u hu with ⟨t, ht, he⟩ | h
      · exact .inl ⟨t, by rw [h2]; exact List.mem_append_left _ ht, he⟩
      · exact .inr h
    · have : j < (m.pool.members ++ [(⟨l, l.rinit q⟩ : RMember)]).length := (List.getElem?_eq_some_iff.mp hu).1
      simp only [List.length_append, List.length_cons, List.length_nil] at this
      exact .inl ⟨pt, by rw [h2]; simp, by omega⟩

theorem counted_step {N : Net} {m m' : Machine} {x : MLabel} (hm : m.Counted)
    (hd : ∀ (t t' : Nat) (pt pt' : PThread), m.threads[t]? = some pt → m.threads[t']? = some pt' →
      pt.member = pt'.member → t = t') (h : m.step N x = some m') : m'.Counted := by
  cases x with
  | object x =>
    simp only [Machine.step] at h
    split at h
    · rename_i hob
      cases hn : m.objects.step N x with
      | none => simp [hn] at h
      | some n0 =>
        simp only [hn, Option.some.injEq] at h
        subst h
        exact ⟨fun P => by rw [← hm.net P]; exact objects_quiet hob hn P, hm.covered⟩
    · cases h
  | startReceiver k config =>
    simp only [Machine.step] at h
    repeat' split at h
    all_goals cases h
    rename_i pool hp
    exact counted_launch hm _ _ pool hp _ rfl rfl rfl (fun P => by simp [netP])
  | startInstance i =>
    simp only [Machine.step] at h
    repeat' split at h
    all_goals cases h
    rename_i pool hp
    exact counted_launch hm _ _ pool hp _ rfl rfl rfl (fun P => by simp [netP, List.countP_cons])
  | reap i =>
    simp only [Machine.step] at h
    split at h
    · rename_i pt hi
      split at h
      · rename_i c hc
        cases h
        refine ⟨fun P => by simp [netP, hm.net], ?_⟩
        intro j u hu
        rcases hm.covered j u hu with ⟨t, ht, rfl⟩ | h
        · by_cases he : t.member = pt.member
          · right
            rw [he] at hu
            simp only [Workers.phase, hu, Option.some.injEq] at hc
            exact ⟨c, hc⟩
          · left
            refine ⟨t, ?_, rfl⟩
            obtain ⟨a, ha⟩ := List.getElem?_of_mem ht
            have hne : a ≠ i := by
              rintro rfl
              rw [hi] at ha
              cases ha
              exact he rfl
            by_cases hlt : a < i
            · exact List.mem_of_getElem? (i := a) (by simp only [List.getElem?_eraseIdx, hlt, if_true]; exact ha)
            · refine List.mem_of_getElem? (i := a - 1) ?_
              simp only [List.getElem?_eraseIdx]
              rw [if_neg (by omega), show a - 1 + 1 = a by omega]
              exact ha
        · exact .inr h
      · cases h
    · cases h
  | work x =>
    simp only [Machine.step] at h
    split at h
    · rename_i hth
      cases hp : m.pool.step x with
      | none => simp [hp] at h
      | some pool =>
        simp only [hp, Option.some.injEq] at h
        subst h
        obtain ⟨_, ⟨l, q, rfl, e⟩ | ⟨hl, e, hj⟩ | ⟨hl, k, y, u, rs', e1, e2, e, hj, _⟩⟩ := Workers.step_members hp
        · simp [TLabel.ofThreads] at hth
        · have htr : ∀ k, pool.trace k = m.pool.trace k := fun k => by simp only [Workers.trace, e]
          refine ⟨fun P => ?_, by intro j u hu; simp only [e] at hu; exact hm.covered j u hu⟩
          have hlog : (m.threads.flatMap fun t =>
              ((pool.trace t.member).drop (m.pool.trace t.member).length).map fun ev => (t.socket, NEv.net ev)) = [] := by
            rw [List.flatMap_eq_nil_iff]
            intro t _
            simp [htr]
          simp only [hlog, List.append_nil, e]
          exact hm.net P
        · have hsame : ∀ j, j ≠ k → pool.trace j = m.pool.trace j := fun j hne => by
            simp only [Workers.trace, e, List.getElem?_set_ne (Ne.symm hne)]
          obtain ⟨⟨w, hw⟩, g2, -⟩ := rstep_trace e2
          have hlt := (List.getElem?_eq_some_iff.mp e1).1
          rcases hm.covered k u e1 with ⟨pt, hpt, hk⟩ | hstop
          · obtain ⟨t, ht⟩ := List.getElem?_of_mem hpt
            have hlog : (m.threads.flatMap fun t =>
                ((pool.trace t.member).drop (m.pool.trace t.member).length).map fun ev => (t.socket, NEv.net ev)) =
                w.map fun ev => (pt.socket, NEv.net ev) := by
              rw [flatMap_single _ m.threads t pt ht]
              · have a1 : pool.trace pt.member = rs'.trace := by
                  simp only [Workers.trace, e, hk, List.getElem?_set_self hlt]
                have a2 : m.pool.trace pt.member = u.state.trace := by simp only [Workers.trace, hk, e1]
                rw [a1, a2, ← hw, List.drop_left]
              · intro t' pt' hne ht'
                rw [hsame pt'.member (fun he => hne (hd t' t pt' pt ht' ht (he.trans hk.symm)))]
                simp
            refine ⟨fun P => ?_, ?_⟩
            · simp only [hlog, List.countP_append, countP_netP, e]
              have := sum_swap (fun u : RMember => u.state.trace.countP P) m.pool.members k u ⟨u.listener, rs'⟩ e1
              simp only [← hw, List.countP_append] at this
              rw [hm.net P]
              omega
            · intro j v hv
              simp only [e] at hv
              by_cases hjk : j = k
              · subst hjk
                exact .inl ⟨pt, hpt, hk⟩
              · rw [List.getElem?_set_ne (Ne.symm hjk)] at hv
                exact hm.covered j v hv
          · exfalso
            obtain ⟨d, rfl⟩ := g2 hstop
            cases x <;> simp only [jobsAt, List.nil_eq, reduceCtorEq] at hj <;> (try split at hj) <;>
              simp only [List.cons.injEq, reduceCtorEq, false_and, and_true, List.nil_eq] at hj
            subst hj
            simp [TLabel.ofThreads] at hth
    · cases h

theorem counted_arrive {N : Net} {m : Machine} (hm : m.Counted) (dest : SocketAddr) (d : Datagram) :
    (m.arrive N dest d).Counted := by
  have hlog : ∀ P, (m.arrive N dest d).log.countP (netP P) = m.log.countP (netP P) := by
    intro P
    simp only [Machine.arrive, List.countP_append, List.countP_map]
    have : (netP P ∘ fun x : Nat × SocketAddr => (x.1, NEv.arrive d)) = fun _ => false := rfl
    rw [this, List.countP_false]
    rfl
  have hpool : (m.arrive N dest d).pool = m.pool ∨ ∃ j u s, m.pool.members[j]? = some u ∧
      u.listener.rstep u.state (.arrive d) = some s ∧
      (m.arrive N dest d).pool.members = m.pool.members.set j ⟨u.listener, s⟩ := by
    simp only [Machine.arrive]
    split
    · rename_i t ht
      simp only [Workers.step, RLabel.outer, if_true, Workers.act]
      cases hu : m.pool.members[t.member]? with
      | none => exact .inl rfl
      | some u =>
        simp only
        cases hs : u.listener.rstep u.state (.arrive d) with
        | none => exact .inl rfl
        | some s => exact .inr ⟨t.member, u, s, hu, hs, rfl⟩
    · exact .inl rfl
  rcases hpool with hp | ⟨j, u, s, h1, h2, h3⟩
  · exact ⟨fun P => by rw [hlog, hp]; exact hm.net P, by intro j u hu; rw [hp] at hu; exact hm.covered j u hu⟩
  · obtain ⟨-, -, h4⟩ := rstep_trace h2
    obtain ⟨h5, h6⟩ := h4 ⟨d, rfl⟩
    refine ⟨fun P => ?_, ?_⟩
    · rw [hlog, h3, hm.net P]
      have := sum_swap (fun u : RMember => u.state.trace.countP P) m.pool.members j u ⟨u.listener, s⟩ h1
      simp only [h6] at this
      omega
    · intro i v hv
      rw [h3] at hv
      by_cases hij : i = j
      · subst hij
        rw [List.getElem?_set_self (List.getElem?_eq_some_iff.mp h1).1] at hv
        cases hv
        simp only [h5]
        exact hm.covered i u h1
      · rw [List.getElem?_set_ne (Ne.symm hij)] at hv
        exact hm.covered i v hv

theorem counted_fleet_step {net : Nat → Net} {ls : List FLabel} {f f' : Fleet} (hr : Fleet.init.run net ls = some f)
    (hm : ∀ m ∈ f.machines, m.Counted) {x : FLabel} (h : f.step net x = some f') : ∀ m ∈ f'.machines, m.Counted := by
  have hset : ∀ (j : Nat) (b : Machine), b.Counted → ∀ m ∈ f.machines.set j b, m.Counted := by
    intro j b hb m hmem
    rcases List.mem_or_eq_of_mem_set hmem with h | rfl
    · exact hm m h
    · exact hb
  cases x with
  | boot threads =>
    simp only [Fleet.step, Option.some.injEq] at h
    subst h
    intro m hmem
    rcases List.mem_append.mp hmem with h | h
    · exact hm m h
    · rw [List.mem_singleton.mp h]
      exact Machine.Counted.init threads
  | proc j x =>
    simp only [Fleet.step] at h
    cases hj : f.machines[j]? with
    | none => simp [hj] at h
    | some mj =>
      simp only [hj] at h
      cases hs : mj.step (net j) x with
      | none => simp [hs] at h
      | some m' =>
        simp only [hs, Option.some.injEq] at h
        subst h
        obtain ⟨c, hc, -⟩ := fleet_reached net ls f hr
        obtain ⟨nd, -, g2⟩ := hc.machines j mj hj
        exact hset j m' (counted_step (hm mj (List.mem_of_getElem? hj)) g2.distinct hs)
  | deliver i j =>
    simp only [Fleet.step] at h
    cases hi : f.air[i]? with
    | none => simp [hi] at h
    | some y =>
      cases hj : f.machines[j]? with
      | none => simp [hi, hj] at h
      | some mj =>
        simp only [hi, hj, Option.some.injEq] at h
        subst h
        exact hset j _ (counted_arrive (hm mj (List.mem_of_getElem? hj)) _ _)
  | foreign dest d =>
    simp only [Fleet.step, Option.some.injEq] at h
    subst h
    exact hm
  | lose i =>
    simp only [Fleet.step, Option.some.injEq] at h
    subst h
    exact hm
  | duplicate i =>
    simp only [Fleet.step] at h
    split at h
    · cases h; exact hm
    · cases h
  | rewrite i dest source =>
    simp only [Fleet.step] at h
    split at h
    · cases h; exact hm
    · cases h

theorem counted_fleet (net : Nat → Net) : ∀ (ls past : List FLabel) (f f' : Fleet), Fleet.init.run net past = some f →
    (∀ m ∈ f.machines, m.Counted) → f.run net ls = some f' → ∀ m ∈ f'.machines, m.Counted
  | [], past, f, f', _, hm, hr => by cases hr; exact hm
  | x :: xs, past, f, f', hp, hm, hr => by
    simp only [Fleet.run] at hr
    cases hx : f.step net x with
    | none => simp [hx] at hr
    | some f1 =>
      simp only [hx] at hr
      exact counted_fleet net xs (past ++ [x]) f1 f' (by rw [Fleet.run_append, hp]; simp [Fleet.run, hx])
        (counted_fleet_step hp hm hx) hr

theorem countP_take_out {α : Type} [DecidableEq α] (p : α → Bool) (l : List α) (a : α) (h : a ∈ l) :
    (l.erase a).countP p + (if p a = true then 1 else 0) = l.countP p := by
  have := (List.perm_cons_erase h).countP_eq p
  rw [this, List.countP_cons]

def Task.calling : Task → Bool
  | .inside _ _ => true
  | _ => false

theorem RState.calls_phase (s : RState) : s.calls =
    match s.phase with
    | .scope _ _ _ tasks _ => tasks.countP Task.calling
    | _ => 0 := by
  unfold RState.calls
  cases s.phase <;> rfl

/-- A listening thread: calls, ends of calls, and those in between. -/
theorem rstep_calls {l : Listener} {s s' : RState} {y : RLabel} (h : l.rstep s y = some s')
    (hs : s.trace.countP Ev.isCall = s.trace.countP Ev.isRet + s.calls) :
    s'.trace.countP Ev.isCall = s'.trace.countP Ev.isRet + s'.calls := by
  have hc := fun t ts h => countP_take_out Task.calling ts t h
  rw [RState.calls_phase] at hs ⊢
  cases y <;> simp only [Listener.rstep] at h <;> (repeat' split at h) <;>
    simp only [Option.some.injEq, reduceCtorEq] at h <;> subst h <;>
    simp_all [List.countP_cons, rafterEvent, Task.calling, Ev.isCall, Ev.isRet]
  all_goals first
    | (rename_i hmem; have := hc _ _ hmem.1; simp [Task.calling] at this; omega)
    | (rename_i hmem; have := hc _ _ hmem; simp [Task.calling] at this; omega)
    | (rename_i k _ _ _ _ _; by_cases hk : k = 0 <;> simp [hk])

/-- All of them. -/
theorem workers_calls {s s' : Workers} {x : TLabel} (h : s.step x = some s')
    (hs : ∀ u ∈ s.members, u.state.trace.countP Ev.isCall = u.state.trace.countP Ev.isRet + u.state.calls) :
    ∀ u ∈ s'.members, u.state.trace.countP Ev.isCall = u.state.trace.countP Ev.isRet + u.state.calls := by
  obtain ⟨_, ⟨l, q, rfl, e⟩ | ⟨hl, e, hj⟩ | ⟨hl, k, y, u, rs', e1, e2, e, hj, _⟩⟩ := Workers.step_members h
  · intro u hu
    rw [e] at hu
    rcases List.mem_append.mp hu with h | h
    · exact hs u h
    · rw [List.mem_singleton.mp h]
      rfl
  · rw [e]; exact hs
  · intro v hv
    rw [e] at hv
    rcases List.mem_or_eq_of_mem_set hv with h | rfl
    · exact hs v h
    · exact rstep_calls e2 (hs u (List.mem_of_getElem? e1))

theorem workers_calls_run : ∀ (ls : List TLabel) (s s' : Workers),
    (∀ u ∈ s.members, u.state.trace.countP Ev.isCall = u.state.trace.countP Ev.isRet + u.state.calls) →
    s.run ls = some s' →
    ∀ u ∈ s'.members, u.state.trace.countP Ev.isCall = u.state.trace.countP Ev.isRet + u.state.calls
  | [], s, s', hs, h => by cases h; exact hs
  | x :: xs, s, s', hs, h => by
    simp only [Workers.run] at h
    cases hx : s.step x with
    | none => simp [hx] at h
    | some s1 =>
      simp only [hx] at h
      exact workers_calls_run xs s1 s' (workers_calls hx hs) h

/-! ## The theorem -/

/-- C96. Never more receivers run at the same time in a process than its pool has threads, all instances together: at
any moment of any history of a whole system, of the calls of receivers in process `k` all but at most that many are
over. -/
theorem C96_concurrent (net : Nat → Net) (ls : List FLabel) (f : Fleet) (h : Fleet.init.run net ls = some f) (k : Nat)
    (m : Machine) (hk : f.machines[k]? = some m) :
    endedIn (processLog k f.log) ≤ calledIn (processLog k f.log) ∧
      calledIn (processLog k f.log) ≤ endedIn (processLog k f.log) + m.pool.threads := by
  have hm := counted_fleet net ls [] Fleet.init f rfl (by intro m hm; simp [Fleet.init] at hm) h m (List.mem_of_getElem? hk)
  obtain ⟨⟨ts, hts⟩, -⟩ := C96_pool net ls f h k m hk
  have hc := workers_calls_run ts _ _ (by intro u hu; simp at hu) hts
  have hb := C89_bound _ ts _ hts
  have hsum : ∀ L : List RMember,
      (∀ u ∈ L, u.state.trace.countP Ev.isCall = u.state.trace.countP Ev.isRet + u.state.calls) →
      (L.map fun u => u.state.trace.countP Ev.isCall).sum =
        (L.map fun u => u.state.trace.countP Ev.isRet).sum + (L.map fun u => u.state.calls).sum := by
    intro L
    induction L with
    | nil => intro _; rfl
    | cons u L ih =>
      intro hL
      have := hL u List.mem_cons_self
      have := ih fun v hv => hL v (List.mem_cons_of_mem _ hv)
      simp only [List.map_cons, List.sum_cons]
      omega
  have := hsum _ hc
  rw [← hm.net, ← hm.net] at this
  rw [(C96_process net ls f h k m hk).1]
  simp only [calledIn, endedIn, netP_called, netP_ended]
  unfold Workers.calls at hb
  omega

/-- The bound is met: the pool of the second process of `exampleFleet` has two threads, and when 23 of its steps are
done, both receivers run. -/
example : ((Fleet.init.run (fun _ => plainNet) ((exampleFleet 16 ⟨[7, 8]⟩).take 23)).map fun f =>
    (calledIn (processLog 1 f.log), endedIn (processLog 1 f.log), f.machines.map fun m => m.pool.threads)) =
      some (2, 0, [1, 2]) := by
  decide +kernel

/-! ## Cases for the theorems above -/

/-! ## Cases for the theorems above -/

/-- `C96_concurrent`: in the state of the example above, and in any other that this run passes through. -/
example (k : Nat) (f : Fleet) (h : Fleet.init.run (fun _ => plainNet) ((exampleFleet 16 ⟨[7, 8]⟩).take k) = some f)
    (m : Machine) (hk : f.machines[1]? = some m) :
    calledIn (processLog 1 f.log) ≤ endedIn (processLog 1 f.log) + m.pool.threads :=
  (C96_concurrent _ _ f h 1 m hk).2

end Ipv8
