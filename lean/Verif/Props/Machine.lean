import Verif.Model.Machine
import Verif.Props.Cluster
import Verif.Props.WorkersPool
/-!
# C96: whole systems, with the threads of the pool
-/

namespace Ipv8
open Spec

/-! ## The process refines the coarser one -/

/-- A listening thread as the pool has it, and as `Model/Node.lean` has it. -/
def ThreadRel (pool : Workers) (k : Nat) (th : Thread) : Prop :=
  ∃ C rs, pool.members[k]? = some ⟨th.listener, rs⟩ ∧ Sim th.listener C rs th.state ∧
    ∃ queued ls, th.listener.run (th.listener.init queued) ls = some th.state

/-- A process, and the same at the level of `Model/Node.lean`. -/
structure MRel (m : Machine) (n : Node) : Prop where
  next : n.next = m.next
  senders : n.senders = m.senders
  receivers : n.receivers = m.receivers
  instances : n.instances = m.instances
  log : n.log = m.log
  len : n.threads.length = m.threads.length
  thread : ∀ (t : Nat) (pt : PThread), m.threads[t]? = some pt → ∃ th, n.threads[t]? = some th ∧
    th.socket = pt.socket ∧ th.address = pt.address ∧ ThreadRel m.pool pt.member th
  distinct : ∀ (t t' : Nat) (pt pt' : PThread), m.threads[t]? = some pt → m.threads[t']? = some pt' →
    pt.member = pt'.member → t = t'

theorem MRel.init (k : Nat) : MRel (Machine.init k) Node.init where
  next := rfl
  senders := rfl
  receivers := rfl
  instances := rfl
  log := rfl
  len := rfl
  thread := by intro t pt h; simp [Machine.init] at h
  distinct := by intro t t' pt pt' h; simp [Machine.init] at h

theorem MRel.bound {m : Machine} {n : Node} (h : MRel m n) :
    n.threads.map (fun x => (x.socket, x.address)) = m.objects.threads.map (fun x => (x.socket, x.address)) := by
  apply List.ext_getElem?
  intro t
  simp only [Machine.objects, List.getElem?_map, List.map_map]
  cases ht : m.threads[t]? with
  | none =>
    have : n.threads[t]? = none := by
      rw [List.getElem?_eq_none_iff] at ht ⊢
      have := h.len
      omega
    simp [this]
  | some pt =>
    obtain ⟨th, h1, h2, h3, _⟩ := h.thread t pt ht
    simp [h1, h2, h3]

theorem MRel.sockets {m : Machine} {n : Node} (h : MRel m n) : n.sockets = m.objects.sockets := by
  have := h.bound
  simp only [Node.sockets, this]
  simp only [Machine.objects, h.senders, h.receivers, h.instances]

/-- Steps of objects only depend on which sockets are bound by threads, and do not change threads. -/
theorem Node.step_objects (N : Net) (n : Node) (ths : List Thread)
    (hs : n.threads.map (fun x => (x.socket, x.address)) = ths.map (fun x => (x.socket, x.address)))
    (x : NLabel) (hx : x.ofObjects = true) :
    n.step N x = (({ n with threads := ths } : Node).step N x).map fun n' => { n' with threads := n.threads } := by
  have hsock : ({ n with threads := ths } : Node).sockets = n.sockets := by
    simp only [Node.sockets, hs]
  have hcan : ∀ a b, ({ n with threads := ths } : Node).canBind N a b = n.canBind N a b := by
    intro a b
    simp only [Node.canBind, hsock]
  cases x <;> simp only [NLabel.ofObjects, Bool.false_eq_true] at hx <;> simp only [Node.step, hcan] <;>
    (repeat' split) <;> simp_all

theorem Machine.objects_eq {m : Machine} {n : Node} (h : MRel m n) :
    m.objects = { n with threads := m.objects.threads } := by
  simp only [Machine.objects, h.next, h.senders, h.receivers, h.instances, h.log]

theorem flatMap_single {α β : Type} (f : α → List β) : ∀ (L : List α) (t : Nat) (a : α), L[t]? = some a →
    (∀ t' a', t' ≠ t → L[t']? = some a' → f a' = []) → L.flatMap f = f a
  | [], t, a, h, _ => by simp at h
  | x :: L, 0, a, h, ho => by
    simp only [List.getElem?_cons_zero, Option.some.injEq] at h
    subst h
    have : L.flatMap f = [] := by
      rw [List.flatMap_eq_nil_iff]
      intro y hy
      obtain ⟨t, ht⟩ := List.getElem?_of_mem hy
      exact ho (t + 1) y (by omega) (by simpa using ht)
    simp [this]
  | x :: L, t + 1, a, h, ho => by
    have hx : f x = [] := ho 0 x (by omega) rfl
    have := flatMap_single f L t a (by simpa using h) (fun t' a' h1 h2 => ho (t' + 1) a' (by omega) (by simpa using h2))
    simp [hx, this]

theorem ThreadRel.mono {pool pool' : Workers} {k : Nat} {th : Thread} (h : ThreadRel pool k th)
    (he : pool'.members[k]? = pool.members[k]?) : ThreadRel pool' k th := by
  obtain ⟨C, rs, h1, h2⟩ := h
  exact ⟨C, rs, he.trans h1, h2⟩

theorem ThreadRel.lt {pool : Workers} {k : Nat} {th : Thread} (h : ThreadRel pool k th) : k < pool.members.length := by
  obtain ⟨C, rs, h1, h2⟩ := h
  exact (List.getElem?_eq_some_iff.mp h1).1

theorem ThreadRel.trace {pool : Workers} {k : Nat} {th : Thread} (h : ThreadRel pool k th) :
    pool.trace k = th.state.trace := by
  obtain ⟨C, rs, h1, h2, _⟩ := h
  simp [Workers.trace, h1, h2.trace]

/-- A thread is started. -/
theorem MRel.launch {m : Machine} {n : Node} (h : MRel m n) (l : Listener) (queue : List Datagram) (socket : Nat)
    (address : SocketAddr) (pool : Workers) (hp : m.pool.step (.launch l queue) = some pool)
    (m' : Machine) (n' : Node) (e1 : n'.next = m'.next) (e2 : n'.senders = m'.senders) (e3 : n'.receivers = m'.receivers)
    (e4 : n'.instances = m'.instances) (e5 : n'.log = m'.log) (e6 : m'.pool = pool)
    (e7 : m'.threads = m.threads ++ [⟨socket, address, m.pool.members.length⟩])
    (e8 : n'.threads = n.threads ++ [⟨socket, address, l, l.init queue⟩]) : MRel m' n' := by
  simp only [Workers.step, Option.some.injEq] at hp
  refine ⟨e1, e2, e3, e4, e5, by simp [e7, e8, h.len], ?_, ?_⟩
  · intro t pt ht
    rw [e7] at ht
    rw [e8, e6, ← hp]
    by_cases hlt : t < m.threads.length
    · rw [List.getElem?_append_left hlt] at ht
      obtain ⟨th, h1, h2, h3, h4⟩ := h.thread t pt ht
      refine ⟨th, by rw [List.getElem?_append_left (by rw [h.len]; exact hlt), h1], h2, h3, h4.mono ?_⟩
      exact List.getElem?_append_left h4.lt
    · have ht' : t = m.threads.length := by
        have := (List.getElem?_eq_some_iff.mp ht).1
        simp at this
        omega
      subst ht'
      simp only [List.getElem?_concat_length, Option.some.injEq] at ht
      subst ht
      refine ⟨⟨socket, address, l, l.init queue⟩, by rw [← h.len]; simp, rfl, rfl, _, l.rinit queue, by simp, sim_init l queue,
        queue, [], rfl⟩
  · intro t t' pt pt' ht ht' he
    rw [e7] at ht ht'
    have old : ∀ (t : Nat) (pt : PThread), t < m.threads.length →
        (m.threads ++ [⟨socket, address, m.pool.members.length⟩])[t]? = some pt →
        m.threads[t]? = some pt ∧ pt.member < m.pool.members.length := by
      intro t pt hlt ht
      rw [List.getElem?_append_left hlt] at ht
      obtain ⟨th, _, _, _, h4⟩ := h.thread t pt ht
      exact ⟨ht, h4.lt⟩
    have new : ∀ (t : Nat) (pt : PThread), ¬ t < m.threads.length →
        (m.threads ++ [⟨socket, address, m.pool.members.length⟩])[t]? = some pt →
        t = m.threads.length ∧ pt.member = m.pool.members.length := by
      intro t pt hlt ht
      have ht' : t = m.threads.length := by
        have := (List.getElem?_eq_some_iff.mp ht).1
        simp at this
        omega
      subst ht'
      simp only [List.getElem?_concat_length, Option.some.injEq] at ht
      exact ⟨rfl, ht ▸ rfl⟩
    by_cases c1 : t < m.threads.length <;> by_cases c2 : t' < m.threads.length
    · exact h.distinct t t' pt pt' (old t pt c1 ht).1 (old t' pt' c2 ht').1 he
    · have := (old t pt c1 ht).2
      have := (new t' pt' c2 ht').2
      omega
    · have := (new t pt c1 ht).2
      have := (old t' pt' c2 ht').2
      omega
    · rw [(new t pt c1 ht).1, (new t' pt' c2 ht').1]

/-- What happens to one thread. -/
theorem ThreadRel.act {pool : Workers} {k : Nat} {th : Thread} (h : ThreadRel pool k th) (u : RMember) (rs' : RState)
    (y : RLabel) (hu : pool.members[k]? = some u) (hy : u.listener.rstep u.state y = some rs')
    (pool' : Workers) (hp : pool'.members = pool.members.set k ⟨u.listener, rs'⟩) :
    ∃ n1, th.listener.run th.state (visible y).toList = some n1 ∧ ThreadRel pool' k { th with state := n1 } := by
  obtain ⟨C, rs, h1, h2, queued, ls, h3⟩ := h
  rw [hu] at h1
  cases h1
  obtain ⟨n1, g1, g2⟩ := sim_step th.listener C rs rs' th.state y h2 (inv_run _ queued _ _ h3).phase hy
  refine ⟨n1, g1, _, rs', ?_, g2, queued, ls ++ (visible y).toList, ?_⟩
  · rw [hp, List.getElem?_set_self (List.getElem?_eq_some_iff.mp hu).1]
  · rw [run_append, h3]
    exact g1

/-- Every step of a process is a step at the coarser level, or nothing that could be seen there. -/
theorem machine_step (N : Net) (m m' : Machine) (n : Node) (x : MLabel) (h : MRel m n) (hx : m.step N x = some m') :
    ∃ n' ys, n.run N ys = some n' ∧ MRel m' n' ∧ ys.length ≤ 1 ∧ ∀ y ∈ ys, ∀ dest d, y ≠ .arrive dest d := by
  cases x with
  | object x =>
    simp only [Machine.step] at hx
    split at hx
    · rename_i hob
      cases hn : m.objects.step N x with
      | none => simp [hn] at hx
      | some n0 =>
        simp only [hn, Option.some.injEq] at hx
        subst hx
        rw [Machine.objects_eq h] at hn
        have := Node.step_objects N n m.objects.threads h.bound x hob
        rw [hn, Option.map_some] at this
        refine ⟨{ n0 with threads := n.threads }, [x], by simp only [Node.run, this], ⟨rfl, rfl, rfl, rfl, rfl, h.len, h.thread, h.distinct⟩, by simp, ?_⟩
        intro y hy dest d he
        simp only [List.mem_singleton] at hy
        subst hy
        subst he
        simp [NLabel.ofObjects] at hob
    · cases hx
  | startReceiver k config =>
    simp only [Machine.step] at hx
    cases hk : m.receivers[k]? with
    | none => simp [hk] at hx
    | some r =>
      simp only [hk] at hx
      split at hx
      · rename_i pool hp
        cases hx
        refine ⟨_, [.startReceiver k config], by simp only [Node.run, Node.step, h.receivers, hk]; rfl, ?_, by simp, by simp⟩
        exact h.launch _ _ r.socket r.address pool hp _ _ h.next h.senders (by simp [h.receivers]) h.instances
          (by simp [h.log]) rfl rfl rfl
      · cases hx
  | startInstance i =>
    simp only [Machine.step] at hx
    cases hk : m.instances[i]? with
    | none => simp [hk] at hx
    | some r =>
      simp only [hk] at hx
      split at hx
      · rename_i pool hp
        cases hx
        refine ⟨_, [.startInstance i], by simp only [Node.run, Node.step, h.instances, hk]; rfl, ?_, by simp, by simp⟩
        exact h.launch _ _ r.receiverSocket r.receiverAddress pool hp _ _ h.next h.senders h.receivers (by simp [h.instances])
          (by simp [h.log]) rfl rfl rfl
      · cases hx
  | reap t =>
    simp only [Machine.step] at hx
    cases ht : m.threads[t]? with
    | none => simp [ht] at hx
    | some pt =>
      simp only [ht] at hx
      split at hx
      · rename_i c hc
        cases hx
        obtain ⟨th, h1, h2, h3, C, rs, g1, g2, g3⟩ := h.thread t pt ht
        have hph : th.state.phase = .stopped c := by
          simp only [Workers.phase, g1, Option.some.injEq] at hc
          have := g2.phase
          rw [hc] at this
          cases hq : th.state.phase <;> rw [hq] at this <;> simp only [PhaseSim] at this
          rw [this]
        refine ⟨_, [.reap t], by simp only [Node.run, Node.step, h1, hph]; rfl, ?_, by simp, by simp⟩
        refine ⟨h.next, h.senders, h.receivers, h.instances, by simp [h.log, h2], ?_, ?_, ?_⟩
        · simp only [List.length_eraseIdx, h.len]
        · intro t' pt' ht'
          simp only [List.getElem?_eraseIdx] at ht' ⊢
          split at ht'
          · rename_i hlt
            simp only [hlt, if_true]
            exact h.thread t' pt' ht'
          · rename_i hlt
            simp only [hlt, if_false]
            exact h.thread _ pt' ht'
        · intro t1 t2 p1 p2 e1 e2 he
          simp only [List.getElem?_eraseIdx] at e1 e2
          split at e1 <;> split at e2 <;> have := h.distinct _ _ p1 p2 e1 e2 he <;> omega
      · cases hx
  | work x =>
    simp only [Machine.step] at hx
    split at hx
    · rename_i hth
      cases hp : m.pool.step x with
      | none => simp [hp] at hx
      | some pool =>
        simp only [hp, Option.some.injEq] at hx
        subst hx
        obtain ⟨_, ⟨l, q, rfl, e⟩ | ⟨hl, e, hj⟩ | ⟨hl, k, y, u, rs', e1, e2, e, hj, _⟩⟩ := Workers.step_members hp
        · simp [TLabel.ofThreads] at hth
        · have htr : ∀ k, pool.trace k = m.pool.trace k := fun k => by simp only [Workers.trace, e]
          have hlog : (m.threads.flatMap fun t =>
              ((pool.trace t.member).drop (m.pool.trace t.member).length).map fun ev => (t.socket, NEv.net ev)) = [] := by
            rw [List.flatMap_eq_nil_iff]
            intro t _
            simp [htr]
          refine ⟨n, [], rfl, ?_, by simp, by simp⟩
          refine ⟨h.next, h.senders, h.receivers, h.instances, by rw [hlog]; simp [h.log], h.len, ?_, h.distinct⟩
          intro t pt ht
          obtain ⟨th, h1, h2, h3, h4⟩ := h.thread t pt ht
          exact ⟨th, h1, h2, h3, h4.mono (by rw [e])⟩
        · have hother : ∀ j, j ≠ k → pool.members[j]? = m.pool.members[j]? := fun j hne => by
            rw [e, List.getElem?_set_ne (Ne.symm hne)]
          have hsame : ∀ j, j ≠ k → pool.trace j = m.pool.trace j := fun j hne => by
            simp only [Workers.trace, hother j hne]
          by_cases hin : ∃ (t : Nat) (pt : PThread), m.threads[t]? = some pt ∧ pt.member = k
          · obtain ⟨t, pt, ht, rfl⟩ := hin
            obtain ⟨th, h1, h2, h3, h4⟩ := h.thread t pt ht
            obtain ⟨n1, g1, g2⟩ := h4.act u rs' y e1 e2 pool e
            have hlog : (m.threads.flatMap fun t =>
                ((pool.trace t.member).drop (m.pool.trace t.member).length).map fun ev => (t.socket, NEv.net ev)) =
                (n1.trace.drop th.state.trace.length).map fun ev => (th.socket, NEv.net ev) := by
              rw [flatMap_single _ m.threads t pt ht]
              · rw [g2.trace, h4.trace, h2]
              · intro t' pt' hne ht'
                rw [hsame pt'.member (fun he => hne (h.distinct t' t pt' pt ht' ht he))]
                simp
            have hlt : t < n.threads.length := (List.getElem?_eq_some_iff.mp h1).1
            have hrel : MRel { m with
                pool := pool
                log := m.log ++ m.threads.flatMap fun t =>
                  ((pool.trace t.member).drop (m.pool.trace t.member).length).map fun ev => (t.socket, NEv.net ev) }
                { n with
                  threads := n.threads.set t { th with state := n1 }
                  log := n.log ++ (n1.trace.drop th.state.trace.length).map fun ev => (th.socket, NEv.net ev) } := by
              refine ⟨h.next, h.senders, h.receivers, h.instances, by rw [hlog]; simp [h.log], by simp [h.len], ?_, h.distinct⟩
              intro t' pt' ht'
              by_cases he : t' = t
              · subst he
                rw [ht] at ht'
                cases ht'
                exact ⟨_, List.getElem?_set_self hlt, h2, h3, g2⟩
              · obtain ⟨th', f1, f2, f3, f4⟩ := h.thread t' pt' ht'
                refine ⟨th', by simp only; rw [List.getElem?_set_ne (Ne.symm he), f1], f2, f3, f4.mono ?_⟩
                exact hother _ (fun hm => he (h.distinct t' t pt' pt ht' ht hm))
            cases hv : visible y with
            | none =>
              rw [hv] at g1
              simp only [Option.toList_none, Listener.run, Option.some.injEq] at g1
              subst g1
              have hset : n.threads.set t { th with state := th.state } = n.threads := by
                obtain ⟨hk, he⟩ := List.getElem?_eq_some_iff.mp h1
                rw [← he]
                exact List.set_getElem_self hk
              rw [hset] at hrel
              simp only [List.drop_length, List.map_nil, List.append_nil] at hrel
              exact ⟨n, [], rfl, hrel, by simp, by simp⟩
            | some z =>
              rw [hv] at g1
              simp only [Option.toList_some, Listener.run] at g1
              have hz : th.listener.step th.state z = some n1 := by
                cases hz : th.listener.step th.state z with
                | none => rw [hz] at g1; cases g1
                | some n2 => rw [hz] at g1; simpa using g1
              have hna : ∀ d, z ≠ .arrive d := by
                rintro d rfl
                cases y <;> simp only [visible, Option.some.injEq, reduceCtorEq, Label.arrive.injEq] at hv
                subst hv
                cases x <;> simp only [jobsAt, List.nil_eq, reduceCtorEq] at hj <;> (try split at hj) <;>
                  simp only [List.cons.injEq, reduceCtorEq, false_and, and_true, List.nil_eq] at hj
                subst hj
                simp [TLabel.ofThreads] at hth
              refine ⟨_, [.thread t z], ?_, hrel, by simp, by simp⟩
              cases z <;> first | (exact absurd rfl (hna _)) | simp only [Node.run, Node.step, h1, hz]
          · have hlog : (m.threads.flatMap fun t =>
                ((pool.trace t.member).drop (m.pool.trace t.member).length).map fun ev => (t.socket, NEv.net ev)) = [] := by
              rw [List.flatMap_eq_nil_iff]
              intro pt hm
              obtain ⟨t, ht⟩ := List.getElem?_of_mem hm
              rw [hsame pt.member (fun he => hin ⟨t, pt, ht, he⟩)]
              simp
            refine ⟨n, [], rfl, ?_, by simp, by simp⟩
            refine ⟨h.next, h.senders, h.receivers, h.instances, by rw [hlog]; simp [h.log], h.len, ?_, h.distinct⟩
            intro t pt ht
            obtain ⟨th, h1, h2, h3, h4⟩ := h.thread t pt ht
            exact ⟨th, h1, h2, h3, h4.mono (hother _ (fun he => hin ⟨t, pt, ht, he⟩))⟩
    · cases hx

theorem nodup_inj {α : Type} {l : List α} (h : l.Nodup) {i j : Nat} {x : α} (hi : l[i]? = some x) (hj : l[j]? = some x) :
    i = j := by
  induction l generalizing i j with
  | nil => simp at hi
  | cons y l ih =>
    rw [List.nodup_cons] at h
    cases i with
    | zero =>
      cases j with
      | zero => rfl
      | succ j =>
        simp only [List.getElem?_cons_zero, Option.some.injEq] at hi
        subst hi
        exact absurd (List.mem_of_getElem? (List.getElem?_cons_succ ▸ hj)) h.1
    | succ i =>
      cases j with
      | zero =>
        simp only [List.getElem?_cons_zero, Option.some.injEq] at hj
        subst hj
        exact absurd (List.mem_of_getElem? (List.getElem?_cons_succ ▸ hi)) h.1
      | succ j => rw [ih h.2 hi hj]

theorem one_thread {N : Net} {ls : List NLabel} {n : Node} (h : Node.init.run N ls = some n) (dest : SocketAddr)
    {t t' : Nat} {a b : Thread} (ha : n.threads[t]? = some a) (hb : n.threads[t']? = some b)
    (ra : N.reaches a.address dest = true) (rb : N.reaches b.address dest = true) : t = t' := by
  have hmem : ∀ x ∈ n.threads, (x.socket, x.address) ∈ n.sockets := by
    intro x hx
    simp only [Node.sockets, List.mem_append, List.mem_map]
    exact .inr ⟨x, hx, rfl⟩
  have hs := (C66_one_socket N ls n h dest a.socket b.socket a.address b.address (hmem a (List.mem_of_getElem? ha))
    (hmem b (List.mem_of_getElem? hb)) ra rb).1
  have hinv := node_run N ls _ _ (Node.init_inv _) h
  have hnd : (n.sockets.map Prod.fst).Nodup := by
    have := hinv.nodup
    rw [Node.sockets_eq, List.map_map]
    exact this
  simp only [Node.sockets, List.map_append, List.map_map] at hnd
  have hnd := (List.nodup_append.mp hnd).2.1
  refine nodup_inj hnd (i := t) (j := t') (x := a.socket) ?_ ?_
  · simp [ha]
  · simp [hb, hs]

/-- The thread that a datagram reaches. -/
theorem MRel.find {N : Net} {m : Machine} {n : Node} (h : MRel m n) {ls : List NLabel}
    (hrun : Node.init.run N ls = some n) (dest : SocketAddr) (t : Nat) (pt : PThread) (ht : m.threads[t]? = some pt)
    (hr : N.reaches pt.address dest = true) :
    m.threads.find? (fun t => N.reaches t.address dest) = some pt := by
  obtain ⟨th, h1, h2, h3, h4⟩ := h.thread t pt ht
  cases hf : m.threads.find? (fun t => N.reaches t.address dest) with
  | none => exact absurd hr (List.find?_eq_none.mp hf pt (List.mem_of_getElem? ht))
  | some pt' =>
    have hm := List.mem_of_find?_eq_some hf
    have hr' := List.find?_some hf
    obtain ⟨t', ht'⟩ := List.getElem?_of_mem hm
    obtain ⟨th', f1, f2, f3, _⟩ := h.thread t' pt' ht'
    have he := one_thread hrun dest h1 f1 (by rw [h3]; exact hr) (by rw [f3]; simpa using hr')
    subst he
    rw [ht] at ht'
    exact ht'.symm

/-- Arrivals. -/
theorem machine_arrive (N : Net) (m : Machine) (n : Node) (h : MRel m n) (hn : ∃ ls, Node.init.run N ls = some n)
    (dest : SocketAddr) (d : Datagram) : MRel (m.arrive N dest d) (n.arrive N dest d) := by
  obtain ⟨ls, hrun⟩ := hn
  refine ⟨h.next, h.senders, by simp [Machine.arrive, Node.arrive, h.receivers],
    by simp [Machine.arrive, Node.arrive, h.instances],
    by simp [Machine.arrive, Node.arrive, h.log, h.sockets], by simp [Machine.arrive, Node.arrive, h.len], ?_, h.distinct⟩
  intro t pt ht
  have ht : m.threads[t]? = some pt := ht
  obtain ⟨th, h1, h2, h3, h4⟩ := h.thread t pt ht
  have hn : (n.arrive N dest d).threads[t]? = some (if N.reaches th.address dest then
      { th with state := (th.listener.step th.state (.arrive d)).getD th.state } else th) := by
    simp only [Node.arrive, List.getElem?_map, h1, Option.map_some]
  refine ⟨_, hn, ?_, ?_, ?_⟩
  · split <;> exact h2
  · split <;> exact h3
  by_cases hr : N.reaches th.address dest = true
  · simp only [hr, if_true]
    have hfind := h.find hrun dest t pt ht (by rw [← h3]; exact hr)
    have hpool : (m.arrive N dest d).pool = (m.pool.step (.io pt.member (.arrive d))).getD m.pool := by
      simp only [Machine.arrive, hfind]
    obtain ⟨C, rs, g1, -⟩ := id h4
    have hstep : m.pool.step (.io pt.member (.arrive d)) = some { m.pool with
        members := m.pool.members.set pt.member ⟨th.listener, { rs with queue := rs.queue ++ [d], ready := true }⟩ } := by
      simp only [Workers.step, RLabel.outer, if_true, Workers.act, g1, Listener.rstep]
    obtain ⟨n1, f1, f2⟩ := h4.act ⟨th.listener, rs⟩ { rs with queue := rs.queue ++ [d], ready := true } (.arrive d) g1 rfl
      (m.arrive N dest d).pool (by rw [hpool, hstep]; rfl)
    simp only [visible, Option.toList_some, Listener.run, Listener.step, Option.some.injEq] at f1
    subst f1
    simpa only [Listener.step, Option.getD_some] using f2
  · simp only [hr, Bool.false_eq_true, if_false]
    refine h4.mono ?_
    show ((m.arrive N dest d).pool).members[pt.member]? = _
    simp only [Machine.arrive]
    split
    · rename_i pt' hf
      have hm := List.mem_of_find?_eq_some hf
      have hr' := List.find?_some hf
      obtain ⟨t', ht'⟩ := List.getElem?_of_mem hm
      have hne : pt'.member ≠ pt.member := by
        intro he
        have := h.distinct t' t pt' pt ht' ht he
        subst this
        rw [ht] at ht'
        cases ht'
        rw [h3] at hr
        exact hr (by simpa using hr')
      obtain ⟨th', _, _, _, C, rs, g1, -⟩ := h.thread t' pt' ht'
      simp only [Workers.step, RLabel.outer, if_true, Workers.act, g1, Listener.rstep, Option.getD_some]
      rw [List.getElem?_set_ne hne]
    · rfl

/-! ## Systems -/

/-- All processes and the network, and the same at the level of `Model/Cluster.lean`. -/
structure FRel (f : Fleet) (c : Cluster) : Prop where
  air : c.air = f.air
  log : c.log = f.log
  len : c.nodes.length = f.machines.length
  machines : ∀ (k : Nat) (m : Machine), f.machines[k]? = some m → ∃ n, c.nodes[k]? = some n ∧ MRel m n

theorem FRel.set {f : Fleet} {c : Cluster} (h : FRel f c) {k : Nat} {m m' : Machine} {n' : Node} {n : Node}
    (hm : f.machines[k]? = some m) (hn : c.nodes[k]? = some n) (hr : MRel m' n') (j : Nat) (mj : Machine)
    (hj : (f.machines.set k m')[j]? = some mj) : ∃ nj, (c.nodes.set k n')[j]? = some nj ∧ MRel mj nj := by
  by_cases he : j = k
  · subst he
    rw [List.getElem?_set_self (List.getElem?_eq_some_iff.mp hm).1] at hj
    cases hj
    exact ⟨n', List.getElem?_set_self (List.getElem?_eq_some_iff.mp hn).1, hr⟩
  · rw [List.getElem?_set_ne (Ne.symm he)] at hj ⊢
    exact h.machines j mj hj

/-- Labels that mean the same at both levels. -/
def sameNetwork (x : FLabel) (ys : List CLabel) : Prop :=
  (∀ i, .duplicate i ∈ ys → x = .duplicate i) ∧ ∀ i dest source, .rewrite i dest source ∈ ys → x = .rewrite i dest source

theorem fleet_step (net : Nat → Net) (f f' : Fleet) (c : Cluster) (x : FLabel) (h : FRel f c)
    (hc : ∀ k n, c.nodes[k]? = some n → ∃ ls, Node.init.run (net k) ls = some n) (hx : f.step net x = some f') :
    ∃ c' ys, c.run net ys = some c' ∧ FRel f' c' ∧ sameNetwork x ys := by
  cases x with
  | boot threads =>
    simp only [Fleet.step, Option.some.injEq] at hx
    subst hx
    refine ⟨_, [.boot], rfl, ⟨h.air, h.log, by simp [h.len], ?_⟩, by simp [sameNetwork]⟩
    intro k m hk
    simp only at hk ⊢
    by_cases hlt : k < f.machines.length
    · rw [List.getElem?_append_left hlt] at hk
      rw [List.getElem?_append_left (by rw [h.len]; exact hlt)]
      exact h.machines k m hk
    · have he : k = f.machines.length := by
        have := (List.getElem?_eq_some_iff.mp hk).1
        simp at this
        omega
      subst he
      simp only [List.getElem?_concat_length, Option.some.injEq] at hk
      subst hk
      exact ⟨Node.init, by rw [← h.len]; simp, MRel.init threads⟩
  | proc k x =>
    simp only [Fleet.step] at hx
    cases hk : f.machines[k]? with
    | none => simp [hk] at hx
    | some m =>
      simp only [hk] at hx
      cases hm : m.step (net k) x with
      | none => simp [hm] at hx
      | some m' =>
        simp only [hm, Option.some.injEq] at hx
        subst hx
        obtain ⟨n, hn, hrel⟩ := h.machines k m hk
        obtain ⟨n', ys, g1, g2, g3, g4⟩ := machine_step (net k) m m' n x hrel hm
        match ys, g3, g1, g4 with
        | [], _, g1, _ =>
          simp only [Node.run, Option.some.injEq] at g1
          subst g1
          have hl : m'.log = m.log := by rw [← g2.log, hrel.log]
          have hset : c.nodes.set k n = c.nodes := by
            obtain ⟨hk, he⟩ := List.getElem?_eq_some_iff.mp hn
            rw [← he]
            exact List.set_getElem_self hk
          refine ⟨c, [], rfl, ⟨by simp [hl, outgoing, h.air], by simp [hl, h.log], by simp [h.len], ?_⟩, by simp [sameNetwork]⟩
          intro j mj hj
          have := h.set (m' := m') (n' := n) hk hn g2 j mj hj
          rwa [hset] at this
        | [y], _, g1, g4 =>
          have hy : n.step (net k) y = some n' := by
            simp only [Node.run] at g1
            cases hy : n.step (net k) y with
            | none => rw [hy] at g1; cases g1
            | some n2 => rw [hy] at g1; simpa using g1
          have hna := g4 y (List.mem_singleton.mpr rfl)
          have hstep : c.step net (.proc k y) = some
              { nodes := c.nodes.set k n'
                air := c.air ++ outgoing (n'.log.drop n.log.length)
                log := c.log ++ (n'.log.drop n.log.length).map (fun e => .at k e.1 e.2) } := by
            cases y <;> first | (exact absurd rfl (hna _ _)) | simp only [Cluster.step, hn, hy]
          refine ⟨{ nodes := c.nodes.set k n'
                    air := c.air ++ outgoing (n'.log.drop n.log.length)
                    log := c.log ++ (n'.log.drop n.log.length).map (fun e => .at k e.1 e.2) },
            [.proc k y], by simp only [Cluster.run, hstep], ⟨?_, ?_, by simp [h.len], ?_⟩, by simp [sameNetwork]⟩
          · simp only [h.air, g2.log, hrel.log]
          · simp only [h.log, g2.log, hrel.log]
          · exact h.set hk hn g2
        | _ :: _ :: _, g3, _, _ => simp at g3
  | foreign dest d =>
    simp only [Fleet.step, Option.some.injEq] at hx
    subst hx
    exact ⟨_, [.foreign dest d], rfl, ⟨by simp [h.air], by simp [h.log], h.len, h.machines⟩, by simp [sameNetwork]⟩
  | lose i =>
    simp only [Fleet.step, Option.some.injEq] at hx
    subst hx
    exact ⟨_, [.lose i], rfl, ⟨by simp [h.air], h.log, h.len, h.machines⟩, by simp [sameNetwork]⟩
  | duplicate i =>
    simp only [Fleet.step] at hx
    cases hi : f.air[i]? with
    | none => simp [hi] at hx
    | some y =>
      simp only [hi, Option.some.injEq] at hx
      subst hx
      exact ⟨{ c with air := f.air ++ [y] }, [.duplicate i], by simp only [Cluster.run, Cluster.step, h.air, hi],
        ⟨by simp [h.air], h.log, h.len, h.machines⟩, by simp [sameNetwork]⟩
  | rewrite i dest source =>
    simp only [Fleet.step] at hx
    cases hi : f.air[i]? with
    | none => simp [hi] at hx
    | some y =>
      simp only [hi, Option.some.injEq] at hx
      subst hx
      exact ⟨{ c with air := f.air.set i (dest, ⟨y.2.bytes, source⟩) }, [.rewrite i dest source],
        by simp only [Cluster.run, Cluster.step, h.air, hi],
        ⟨by simp [h.air], h.log, h.len, h.machines⟩, by simp +contextual [sameNetwork]⟩
  | deliver i k =>
    simp only [Fleet.step] at hx
    cases hi : f.air[i]? with
    | none => simp [hi] at hx
    | some y =>
      cases hk : f.machines[k]? with
      | none => simp [hi, hk] at hx
      | some m =>
        simp only [hi, hk, Option.some.injEq] at hx
        subst hx
        obtain ⟨n, hn, hrel⟩ := h.machines k m hk
        have ha := machine_arrive (net k) m n hrel (hc k n hn) y.1 y.2
        refine ⟨{ nodes := c.nodes.set k (n.arrive (net k) y.1 y.2)
                  air := f.air.eraseIdx i
                  log := c.log ++ ((n.arrive (net k) y.1 y.2).log.drop n.log.length).map (fun e => .at k e.1 e.2) },
          [.deliver i k], by simp only [Cluster.run, Cluster.step, h.air, hi, hn],
          ⟨by simp [h.air], ?_, by simp [h.len], h.set hk hn ha⟩, by simp [sameNetwork]⟩
        simp only [h.log, ha.log, hrel.log]

theorem cluster_runs (net : Nat → Net) (ls : List CLabel) (c : Cluster) (h : Cluster.init.run net ls = some c) :
    CInv (fun x y => x.2.bytes = y.2.bytes) net c :=
  cinv_run (fun x y => x.2.bytes = y.2.bytes) (fun _ => rfl) net ls _ c (fun _ _ _ _ _ _ h => h) (cinv_init _ net) h

theorem Fleet.run_append (net : Nat → Net) (as bs : List FLabel) (f : Fleet) :
    f.run net (as ++ bs) = (f.run net as).bind fun f' => f'.run net bs := by
  induction as generalizing f with
  | nil => rfl
  | cons x as ih =>
    simp only [List.cons_append, Fleet.run]
    cases f.step net x with
    | none => rfl
    | some f' => exact ih f'

theorem fleet_run (net : Nat → Net) : ∀ (ls : List FLabel) (f f' : Fleet) (past : List CLabel) (c : Cluster),
    FRel f c → Cluster.init.run net past = some c → f.run net ls = some f' →
    ∃ ys c', Cluster.init.run net (past ++ ys) = some c' ∧ FRel f' c' ∧
      (∀ i, .duplicate i ∈ ys → .duplicate i ∈ ls) ∧
      ∀ i dest source, .rewrite i dest source ∈ ys → .rewrite i dest source ∈ ls
  | [], f, f', past, c, h, hp, hr => by
    cases hr
    exact ⟨[], c, by simpa using hp, h, by simp, by simp⟩
  | x :: xs, f, f', past, c, h, hp, hr => by
    simp only [Fleet.run] at hr
    cases hx : f.step net x with
    | none => simp [hx] at hr
    | some f1 =>
      simp only [hx] at hr
      obtain ⟨c1, ys, g1, g2, g3, g4⟩ := fleet_step net f f1 c x h
        (fun k n hk => ((cluster_runs net past c hp).runs k n hk).1) hx
      obtain ⟨zs, c', e1, e2, e3, e4⟩ := fleet_run net xs f1 f' (past ++ ys) c1 g2 (by
        rw [Cluster.run_append, hp]; exact g1) hr
      refine ⟨ys ++ zs, c', by rw [← List.append_assoc]; exact e1, e2, ?_, ?_⟩
      · intro i hi
        rcases List.mem_append.mp hi with hi | hi
        · rw [g3 i hi]; exact List.mem_cons_self
        · exact List.mem_cons_of_mem _ (e3 i hi)
      · intro i dest source hi
        rcases List.mem_append.mp hi with hi | hi
        · rw [g4 i dest source hi]; exact List.mem_cons_self
        · exact List.mem_cons_of_mem _ (e4 i dest source hi)

theorem FRel.init : FRel Fleet.init Cluster.init := ⟨rfl, rfl, rfl, by intro k m h; simp [Fleet.init] at h⟩

/-- Of every reachable state. -/
theorem fleet_reached (net : Nat → Net) (ls : List FLabel) (f : Fleet) (h : Fleet.init.run net ls = some f) :
    ∃ c, FRel f c ∧ ∀ k n, c.nodes[k]? = some n →
      (∃ ls, Node.init.run (net k) ls = some n) ∧ processLog k c.log = n.log := by
  obtain ⟨ys, c, h1, h2, -⟩ := fleet_run net ls _ f [] _ FRel.init rfl h
  exact ⟨c, h2, (cluster_runs net _ c h1).runs⟩

/-- What was recorded about a thread is what it did. -/
theorem thread_log {N : Net} {ls : List NLabel} {n : Node} (h : Node.init.run N ls = some n) {t : Thread}
    (ht : t ∈ n.threads) : threadIn (history t.socket n.log) = t.state.trace := by
  have hi := node_run N ls _ _ (Node.init_inv N) h
  have hm : (t.socket, Obj.thread t.address t.listener t.state) ∈ n.objs := by
    simp only [objsOf, List.mem_append, List.mem_map]
    exact .inr ⟨t, ht, rfl⟩
  obtain ⟨u, b, xs, hr, hl, hrun, hh⟩ := hi.fits _ hm
  simp only at hh
  obtain ⟨o1, -⟩ := observed_facts _ _ _ _ hrun
  have ho := receiverLife_only hr
  rw [hh, threadIn_append, ho.1, o1]
  simp [threadIn, Listener.init]

theorem Machine.pool_step {N : Net} {m m' : Machine} {x : MLabel} (h : m.step N x = some m') :
    match m.poolLabel x with
    | some y => m.pool.step y = some m'.pool
    | none => m'.pool = m.pool := by
  cases x with
  | object x =>
    simp only [Machine.step] at h
    split at h
    · split at h
      · cases h; rfl
      · cases h
    · cases h
  | startReceiver k config =>
    simp only [Machine.step] at h
    cases hk : m.receivers[k]? with
    | none => simp [hk] at h
    | some r =>
      simp only [hk] at h
      simp only [Machine.poolLabel, hk, Option.map_some]
      split at h
      · rename_i pool hp
        cases h
        exact hp
      · cases h
  | startInstance k =>
    simp only [Machine.step] at h
    cases hk : m.instances[k]? with
    | none => simp [hk] at h
    | some r =>
      simp only [hk] at h
      simp only [Machine.poolLabel, hk, Option.map_some]
      split at h
      · rename_i pool hp
        cases h
        exact hp
      · cases h
  | work x =>
    simp only [Machine.step] at h
    simp only [Machine.poolLabel]
    split at h
    · split at h
      · rename_i pool hp
        cases h
        exact hp
      · cases h
    · cases h
  | reap t =>
    simp only [Machine.step] at h
    split at h
    · split at h
      · cases h; rfl
      · cases h
    · cases h

/-- Each step of the system is one or none of each pool. -/
theorem fleet_pool (net : Nat → Net) (ls : List FLabel) (f f' : Fleet) (hr : Fleet.init.run net ls = some f) (x : FLabel)
    (h : f.step net x = some f') (k n : Nat) (hn : ∀ m, f'.machines[k]? = some m → m.pool.threads = n) :
    match f.poolLabel net k x with
    | some y => (f.pool k n).step y = some (f'.pool k n)
    | none => f'.pool k n = f.pool k n := by
  cases x with
  | boot threads =>
    simp only [Fleet.step, Option.some.injEq] at h
    subst h
    simp only [Fleet.poolLabel, Fleet.pool]
    by_cases hlt : k < f.machines.length
    · rw [List.getElem?_append_left hlt]
    · have he : f.machines[k]? = none := List.getElem?_eq_none_iff.mpr (by omega)
      rw [he]
      by_cases hk : k = f.machines.length
      · subst hk
        have := hn (Machine.init threads) (by simp)
        simp only [Machine.init] at this
        subst this
        simp [Machine.init]
      · rw [List.getElem?_eq_none_iff.mpr (by simp; omega)]
  | proc j x =>
    simp only [Fleet.step] at h
    cases hj : f.machines[j]? with
    | none => simp [hj] at h
    | some m =>
      simp only [hj] at h
      cases hm : m.step (net j) x with
      | none => simp [hm] at h
      | some m' =>
        simp only [hm, Option.some.injEq] at h
        subst h
        simp only [Fleet.poolLabel, Fleet.pool]
        by_cases hjk : j = k
        · subst hjk
          simp only [if_true, hj, Option.bind_some, List.getElem?_set_self (List.getElem?_eq_some_iff.mp hj).1]
          exact Machine.pool_step hm
        · simp only [hjk, if_false]
          rw [List.getElem?_set_ne hjk]
  | deliver i j =>
    simp only [Fleet.step] at h
    cases hi : f.air[i]? with
    | none => simp [hi] at h
    | some y =>
      cases hj : f.machines[j]? with
      | none => simp [hi, hj] at h
      | some m =>
        simp only [hi, hj, Option.some.injEq] at h
        subst h
        simp only [Fleet.poolLabel, Fleet.pool]
        by_cases hjk : j = k
        · subst hjk
          simp only [if_true, hj, hi, List.getElem?_set_self (List.getElem?_eq_some_iff.mp hj).1]
          cases hf : m.threads.find? fun t => (net j).reaches t.address y.1 with
          | none => simp [Machine.arrive, hf]
          | some t =>
            simp only [Option.map_some, Machine.arrive, hf]
            obtain ⟨c, hc, -⟩ := fleet_reached net ls f hr
            obtain ⟨nd, -, hrel⟩ := hc.machines j m hj
            obtain ⟨ti, ht⟩ := List.getElem?_of_mem (List.mem_of_find?_eq_some hf)
            obtain ⟨th, -, -, -, C, rs, g1, -⟩ := hrel.thread ti t ht
            simp [Workers.step, RLabel.outer, Workers.act, g1, Listener.rstep]
        · simp only [hjk, if_false]
          rw [List.getElem?_set_ne hjk]
  | foreign dest d =>
    simp only [Fleet.step, Option.some.injEq] at h
    subst h
    rfl
  | lose i =>
    simp only [Fleet.step, Option.some.injEq] at h
    subst h
    rfl
  | duplicate i =>
    simp only [Fleet.step] at h
    split at h
    · cases h; rfl
    · cases h
  | rewrite i dest source =>
    simp only [Fleet.step] at h
    split at h
    · cases h; rfl
    · cases h

/-- Processes stay, and so does the size of their pools. -/
theorem fleet_stays (net : Nat → Net) (ls : List FLabel) (f f' : Fleet) (hr : Fleet.init.run net ls = some f) (x : FLabel)
    (h : f.step net x = some f') (k : Nat) (m : Machine) (hk : f.machines[k]? = some m) :
    ∃ m', f'.machines[k]? = some m' ∧ m'.pool.threads = m.pool.threads := by
  have hex : ∃ m', f'.machines[k]? = some m' := by
    have hlt := (List.getElem?_eq_some_iff.mp hk).1
    have : k < f'.machines.length := by
      cases x <;> simp only [Fleet.step] at h <;> (repeat' split at h) <;> cases h <;> simp <;> omega
    exact ⟨_, List.getElem?_eq_getElem this⟩
  obtain ⟨m', hm'⟩ := hex
  refine ⟨m', hm', ?_⟩
  have := fleet_pool net ls f f' hr x h k m'.pool.threads (by intro m'' h''; rw [hm'] at h''; cases h''; rfl)
  simp only [Fleet.pool, hk, hm'] at this
  split at this
  · exact (Workers.step_members this).1
  · rw [this]

/-! ## The theorems -/

/-- C96. The threads of the pool, who takes up which job when, and what is buried under what on their stacks: nothing of
that can be seen from outside.  Whatever any number of processes with pools of any sizes and the network between
them do, there is a history of the simpler system of C78, in which the listening threads hand over packets without
regard to threads, with exactly the same events in the same order and the same datagrams under way, and with no
more done to them on their way. -/
theorem C96 (net : Nat → Net) (ls : List FLabel) (f : Fleet) (h : Fleet.init.run net ls = some f) :
    ∃ ys c, Cluster.init.run net ys = some c ∧ c.log = f.log ∧ c.air = f.air ∧
      (∀ i, .duplicate i ∈ ys → .duplicate i ∈ ls) ∧
      ∀ i dest source, .rewrite i dest source ∈ ys → .rewrite i dest source ∈ ls := by
  obtain ⟨ys, c, h1, h2, h3, h4⟩ := fleet_run net ls _ f [] _ FRel.init rfl h
  exact ⟨ys, c, h1, h2.log, h2.air, h3, h4⟩

/-- C96. The same for each process by itself: its history is one of `Model/Node.lean`, so that all of C66, C67, C71 and
C72 holds of it. -/
theorem C96_process (net : Nat → Net) (ls : List FLabel) (f : Fleet) (h : Fleet.init.run net ls = some f) (k : Nat)
    (m : Machine) (hk : f.machines[k]? = some m) :
    processLog k f.log = m.log ∧ ∃ lk n, Node.init.run (net k) lk = some n ∧ n.log = m.log := by
  obtain ⟨ys, c, h1, h2, -⟩ := fleet_run net ls _ f [] _ FRel.init rfl h
  obtain ⟨n, g1, g2⟩ := h2.machines k m hk
  obtain ⟨⟨lk, g3⟩, g4⟩ := (cluster_runs net _ c h1).runs k n g1
  exact ⟨by rw [← h2.log, g4, g2.log], lk, n, g3, g2.log⟩

/-- C96. Nothing comes from nowhere (as in C78): when a receiver is called with a packet, then the same bytes were handed
to the network before, and arrived afterwards at the very socket whose thread makes the call. -/
theorem C96_origin (net : Nat → Net) (ls : List FLabel) (f : Fleet) (h : Fleet.init.run net ls = some f)
    (k s r : Nat) (p : Packet) (a : Address) (pre post : List CEv)
    (hl : f.log = pre ++ .at k s (.net (.call r p a)) :: post) :
    ∃ b d first between dest d0,
      pre = first ++ .at k s (.arrive d) :: between ∧ .at k s (.start b) ∈ pre ∧
      p.bytes = d.bytes.take b ∧ a.sock = d.source ∧
      (dest, d0) ∈ emittedIn first ∧ d0.bytes = d.bytes := by
  obtain ⟨ys, c, h1, h2, -⟩ := C96 net ls f h
  exact C78 net ys c h1 k s r p a pre post (by rw [h2]; exact hl)

/-- C96. Without NAT boxes on the way, the address a receiver is called with is the source of the datagram. -/
theorem C96_flat (net : Nat → Net) (ls : List FLabel) (f : Fleet) (h : Fleet.init.run net ls = some f)
    (hflat : ∀ i dest source, .rewrite i dest source ∉ ls)
    (k s r : Nat) (p : Packet) (a : Address) (pre post : List CEv)
    (hl : f.log = pre ++ .at k s (.net (.call r p a)) :: post) :
    ∃ b d first between dest address,
      pre = first ++ .at k s (.arrive d) :: between ∧ .at k s (.start b) ∈ pre ∧
      received b d = (p, a) ∧ (dest, d) ∈ emittedIn first ∧
      .at k s (.bind .receiver address) ∈ first ∧ (net k).reaches address dest = true := by
  obtain ⟨ys, c, h1, h2, -, -, h5⟩ := C96 net ls f h
  exact C78_flat net ys c h1 (fun i x y hm => hflat i x y (h5 i x y hm)) k s r p a pre post (by rw [h2]; exact hl)

/-- C96. What a process hands to the network comes from a socket that it has bound and not closed. -/
theorem C96_source (net : Nat → Net) (ls : List FLabel) (f : Fleet) (h : Fleet.init.run net ls = some f)
    (k s : Nat) (dest : SocketAddr) (d : Datagram) (pre post : List CEv)
    (hl : f.log = pre ++ .at k s (.send dest d) :: post) :
    .at k s (.bind .sender d.source) ∈ pre ∧ .at k s .close ∉ pre := by
  obtain ⟨ys, c, h1, h2, -⟩ := C96 net ls f h
  exact C78_source net ys c h1 k s dest d pre post (by rw [h2]; exact hl)

/-- C96. If the network duplicates nothing, nothing arrives more often than it was sent. -/
theorem C96_at_most (net : Nat → Net) (ls : List FLabel) (f : Fleet) (h : Fleet.init.run net ls = some f)
    (hdup : ∀ i, .duplicate i ∉ ls) (w : Bytes) :
    copies w (arrivedAnywhere f.log) ≤ copies w ((emittedIn f.log).map Prod.snd) := by
  obtain ⟨ys, c, h1, h2, -, h4, -⟩ := C96 net ls f h
  rw [← h2]
  exact C78_at_most net ys c h1 (fun i hm => hdup i (h4 i hm)) w

/-- C96. Signatures hold from end to end, whatever the pools do. -/
theorem C96_authentic (R : Ring) (pk : Ed25519PublicKey) (types : Bytes → UInt8 → List Kind)
    (Signed : Message → Prop) (hconf : ∀ m, Signed m → m.Conforms types)
    (net : Nat → Net) (ls : List FLabel) (f : Fleet) (h : Fleet.init.run net ls = some f)
    (k s r : Nat) (p : Packet) (address : Address) (hcall : .at k s (.net (.call r p address)) ∈ f.log)
    (hforg : ∀ x ∈ emittedIn f.log, ∀ b, .at k s (.start b) ∈ f.log →
      NotForged R pk Signed (x.2.bytes.take b))
    (hlen : p.bytes.length ≤ usizeMax) (header : Header) (d d' d'' : PacketDeserializer)
    (hpop : p.startDeserialize.popHeader = (.ok header, d)) (a : BinMemberAuthenticationPayload)
    (hauth : d.nextPayload BinMemberAuthenticationPayload = (.ok a, d''))
    (hkey : a.publicKeyBin = pk) (hver : d.verify R = (.ok true, d')) :
    ∃ m, Signed m ∧ header = Header.pyIpv8Header m.mid m.type ∧ a = ⟨pk, m.encryptionKey⟩ ∧
      readAll d' (types m.mid.1 m.type) = .ok (m.payloads, ⟨d'.pntr, d'.pntr.bytes.length⟩) := by
  obtain ⟨ys, c, h1, h2, -⟩ := C96 net ls f h
  rw [← h2] at hcall hforg
  exact C78_authentic R pk types Signed hconf net ys c h1 k s r p address hcall hforg hlen header d d' d'' hpop a hauth hkey
    hver

theorem fleet_pool_run (net : Nat → Net) (k n : Nat) : ∀ (ls past : List FLabel) (f f' : Fleet) (ts : List TLabel),
    Fleet.init.run net past = some f → (Workers.mk n [] []).run ts = some (f.pool k n) → f.run net ls = some f' →
    (∀ m, f'.machines[k]? = some m → m.pool.threads = n) →
    ∃ ts', (Workers.mk n [] []).run ts' = some (f'.pool k n)
  | [], past, f, f', ts, _, h2, h3, _ => by cases h3; exact ⟨ts, h2⟩
  | x :: xs, past, f, f', ts, h1, h2, h3, h4 => by
    simp only [Fleet.run] at h3
    cases hx : f.step net x with
    | none => simp [hx] at h3
    | some f1 =>
      simp only [hx] at h3
      have hp : Fleet.init.run net (past ++ [x]) = some f1 := by rw [Fleet.run_append, h1]; simp [Fleet.run, hx]
      have later : ∀ (xs : List FLabel) (past : List FLabel) (f1 f' : Fleet), Fleet.init.run net past = some f1 →
          f1.run net xs = some f' → ∀ m, f1.machines[k]? = some m →
          ∃ m', f'.machines[k]? = some m' ∧ m'.pool.threads = m.pool.threads := by
        intro xs
        induction xs with
        | nil => intro past f1 f' _ h m hm; cases h; exact ⟨m, hm, rfl⟩
        | cons y ys ih =>
          intro past f1 f' hp h m hm
          simp only [Fleet.run] at h
          cases hy : f1.step net y with
          | none => simp [hy] at h
          | some f2 =>
            simp only [hy] at h
            obtain ⟨m2, g1, g2⟩ := fleet_stays net past f1 f2 hp y hy k m hm
            obtain ⟨m3, g3, g4⟩ := ih (past ++ [y]) f2 f' (by rw [Fleet.run_append, hp]; simp [Fleet.run, hy]) h m2 g1
            exact ⟨m3, g3, g4.trans g2⟩
      have hn1 : ∀ m, f1.machines[k]? = some m → m.pool.threads = n := by
        intro m hm
        obtain ⟨m', g1, g2⟩ := later xs _ f1 f' hp h3 m hm
        rw [← g2]
        exact h4 m' g1
      have hs := fleet_pool net past f f1 h1 x hx k n hn1
      cases hl : f.poolLabel net k x with
      | none =>
        rw [hl] at hs
        simp only at hs
        exact fleet_pool_run net k n xs _ f1 f' ts hp (by rw [hs]; exact h2) h3 h4
      | some y =>
        rw [hl] at hs
        simp only at hs
        refine fleet_pool_run net k n xs _ f1 f' (ts ++ [y]) hp ?_ h3 h4
        have : ∀ (as bs : List TLabel) (s : Workers), s.run (as ++ bs) = (s.run as).bind fun s' => s'.run bs := by
          intro as bs
          induction as with
          | nil => intro s; rfl
          | cons a as ih =>
            intro s
            simp only [List.cons_append, Workers.run]
            cases s.step a with
            | none => rfl
            | some s' => exact ih s'
        rw [this, h2]
        simp [Workers.run, hs]

/-- C96. And each pool by itself behaves as in C89, so that all of C89 holds of it: never more receiver calls in progress
than threads, never stuck, bounded stacks, bounded work for every packet.  What listening thread `t` does in the pool
is what is recorded about its socket. -/
theorem C96_pool (net : Nat → Net) (ls : List FLabel) (f : Fleet) (h : Fleet.init.run net ls = some f) (k : Nat)
    (m : Machine) (hk : f.machines[k]? = some m) :
    (∃ ts, (Workers.mk m.pool.threads [] []).run ts = some m.pool) ∧
      ∀ t ∈ m.threads, threadIn (history t.socket (processLog k f.log)) = m.pool.trace t.member := by
  constructor
  · obtain ⟨ts, g⟩ := fleet_pool_run net k m.pool.threads ls [] Fleet.init f [] rfl rfl h
      (by intro m' h'; rw [hk] at h'; cases h'; rfl)
    exact ⟨ts, by simpa only [Fleet.pool, hk] using g⟩
  · intro t ht
    obtain ⟨c, hc, hruns⟩ := fleet_reached net ls f h
    obtain ⟨n, g1, g2⟩ := hc.machines k m hk
    obtain ⟨⟨lk, g3⟩, g4⟩ := hruns k n g1
    obtain ⟨ti, hti⟩ := List.getElem?_of_mem ht
    obtain ⟨th, e1, e2, -, e4⟩ := g2.thread ti t hti
    rw [← hc.log, g4, ← e2, thread_log g3 (List.mem_of_getElem? e1), e4.trace]

/-- The pool sizes of the processes that were started, in order. -/
def pools : List FLabel → List Nat
  | [] => []
  | .boot n :: ls => n :: pools ls
  | _ :: ls => pools ls

/-- C96. Nothing but starting one adds a process or takes one away, and its pool has the size it was started with for
ever: threads are neither lost, whatever panics, nor added. -/
theorem C96_size (net : Nat → Net) (ls : List FLabel) (f : Fleet) (h : Fleet.init.run net ls = some f) :
    f.machines.map (fun m => m.pool.threads) = pools ls := by
  have key : ∀ (ls pre : List FLabel) (g f : Fleet), Fleet.init.run net pre = some g → g.run net ls = some f →
      f.machines.map (fun m => m.pool.threads) = g.machines.map (fun m => m.pool.threads) ++ pools ls := by
    intro ls
    induction ls with
    | nil => intro pre g f _ h; cases h; simp [pools]
    | cons x ls ih =>
      intro pre g f hg h
      simp only [Fleet.run] at h
      cases hx : g.step net x with
      | none => rw [hx] at h; cases h
      | some g' =>
        rw [hx] at h
        simp only at h
        rw [ih (pre ++ [x]) g' f (by rw [Fleet.run_append, hg]; simp only [Option.bind_some, Fleet.run, hx]) h]
        have stay : (∀ n, x ≠ .boot n) →
            g'.machines.map (fun m => m.pool.threads) = g.machines.map (fun m => m.pool.threads) := by
          intro hb
          have hlen : g'.machines.length = g.machines.length := by
            cases x with
            | boot n => exact absurd rfl (hb n)
            | _ => simp only [Fleet.step] at hx <;> (repeat' split at hx) <;> cases hx <;> simp
          apply List.ext_getElem?
          intro k
          rw [List.getElem?_map, List.getElem?_map]
          cases hk : g.machines[k]? with
          | none =>
            rw [List.getElem?_eq_none_iff] at hk
            rw [List.getElem?_eq_none_iff.mpr (by omega)]
          | some m =>
            obtain ⟨m', h1, h2⟩ := fleet_stays net pre g g' hg x hx k m hk
            rw [h1, Option.map_some, Option.map_some, h2]
        cases x with
        | boot n =>
          simp only [Fleet.step, Option.some.injEq] at hx
          subst hx
          simp [pools, Machine.init]
        | _ => rw [stay (by intro n hn; cases hn)]; rfl
  have := key ls [] Fleet.init f rfl h
  simpa [Fleet.init] using this

/-! ## A concrete case -/

/-- As `exampleCluster`, but the second process has two receivers, which two threads of its pool execute: thread 1
begins, halves, and leaves the second receiver to thread 0, which calls it first. -/
def exampleFleet (size : Nat) (p : Packet) : List FLabel :=
  [.boot 1, .boot 2,
   .proc 0 (.object (.newSender ⟨.v4 1 1 1 1 0⟩ (.v4 1 1 1 1 1))),
   .proc 1 (.object (.newInstance { Config.default with buffersize := size } (.v4 0 0 0 0 9) (.v4 0 0 0 0 8000))),
   .proc 1 (.object (.setup 0 (.addReceiver ⟨fun _ _ => false, fun _ _ => []⟩))),
   .proc 1 (.object (.setup 0 (.addReceiver ⟨fun _ _ => false, fun _ _ => []⟩))),
   .proc 1 (.startInstance 0),
   .proc 0 (.object (.send 0 ⟨.v4 5 5 5 5 5⟩ p)),
   .duplicate 0, .foreign (.v4 0 0 0 0 9) ⟨[1, 2], .v4 6 6 6 6 6⟩,
   .rewrite 0 (.v4 0 0 0 0 9) (.v4 7 7 7 7 7), .deliver 0 1, .lose 0,
   .proc 1 (.work (.io 0 .pollEvent)), .proc 1 (.work (.io 0 .recv)), .proc 1 (.work (.enter 1 0)),
   .proc 1 (.work (.take 1 0 0 2)), .proc 1 (.work (.split 1 0 0 2)), .proc 1 (.work (.take 0 0 1 2)),
   .proc 1 (.work (.begin 0 0 1 2)), .proc 1 (.work (.call 0 0 1 2)),
   .proc 1 (.work (.begin 1 0 0 1)), .proc 1 (.work (.call 1 0 0 1)), .proc 1 (.work (.finish 1 0 0 1)),
   .proc 1 (.work (.done 1 0 1)), .proc 1 (.work (.finish 0 0 1 2)), .proc 1 (.work (.done 0 0 2)),
   .proc 1 (.work (.resume 1 0 1 2)), .proc 1 (.work (.exit 1 0))]

/-- The situation of all theorems above. -/
example : ∃ f, Fleet.init.run (fun _ => plainNet) (exampleFleet 16 ⟨[7, 8]⟩) = some f ∧
    f.air = [(.v4 0 0 0 0 9, ⟨[1, 2], .v4 6 6 6 6 6⟩)] ∧
    f.log =
      [.at 0 0 (.bind .sender (.v4 1 1 1 1 1)),
       .at 1 0 (.bind .receiver (.v4 0 0 0 0 9)), .at 1 1 (.bind .sender (.v4 0 0 0 0 8000)),
       .at 1 0 (.register ⟨fun _ _ => false, fun _ _ => []⟩), .at 1 0 (.register ⟨fun _ _ => false, fun _ _ => []⟩),
       .at 1 0 (.start 16), .at 1 1 .close,
       .at 0 0 (.send (.v4 5 5 5 5 5) ⟨[7, 8], .v4 1 1 1 1 1⟩),
       .foreign (.v4 0 0 0 0 9) ⟨[1, 2], .v4 6 6 6 6 6⟩,
       .at 1 0 (.arrive ⟨[7, 8], .v4 7 7 7 7 7⟩),
       .at 1 0 (.net (.taken ⟨[7, 8]⟩ ⟨.v4 7 7 7 7 7⟩)),
       .at 1 0 (.net (.call 1 ⟨[7, 8]⟩ ⟨.v4 7 7 7 7 7⟩)),
       .at 1 0 (.net (.call 0 ⟨[7, 8]⟩ ⟨.v4 7 7 7 7 7⟩)),
       .at 1 0 (.net (.ret 0)), .at 1 0 (.net (.ret 1))] := by
  refine ⟨_, rfl, ?_, ?_⟩ <;> rfl

/-- The same with a signed packet: the situation of `C96_authentic`. -/
example : ((Fleet.init.run (fun _ => plainNet) (exampleFleet 2048 exampleSigned)).map fun f =>
    f.log.any fun e => match e with
      | .at 1 0 (.net (.call 0 q _)) => q.bytes == exampleSigned.bytes
      | _ => false) = some true := by
  decide +kernel

/-! ## Cases for the theorems above -/

/-! ## Cases for the theorems above -/

/-- `C96_process`, `C96_pool`: the second process of the run above. -/
example (f : Fleet) (h : Fleet.init.run (fun _ => plainNet) (exampleFleet 16 ⟨[7, 8]⟩) = some f) (m : Machine)
    (hk : f.machines[1]? = some m) :
    processLog 1 f.log = m.log ∧
      ∀ t ∈ m.threads, threadIn (history t.socket (processLog 1 f.log)) = m.pool.trace t.member :=
  ⟨(C96_process _ _ f h 1 m hk).1, (C96_pool _ _ f h 1 m hk).2⟩

/-- `C96_origin`: its receivers were handed a packet that somebody sent. -/
example (f : Fleet) (h : Fleet.init.run (fun _ => plainNet) (exampleFleet 16 ⟨[7, 8]⟩) = some f) (pre post : List CEv)
    (hl : f.log = pre ++ .at 1 0 (.net (.call 1 ⟨[7, 8]⟩ ⟨.v4 7 7 7 7 7⟩)) :: post) :
    ∃ b d first between dest d0,
      pre = first ++ .at 1 0 (.arrive d) :: between ∧ .at 1 0 (.start b) ∈ pre ∧
      [7, 8] = d.bytes.take b ∧ .v4 7 7 7 7 7 = d.source ∧ (dest, d0) ∈ emittedIn first ∧ d0.bytes = d.bytes :=
  C96_origin _ _ f h 1 0 1 _ _ pre post hl

/-- `C96_source`: the first process sent from the address it is bound to. -/
example (f : Fleet) (h : Fleet.init.run (fun _ => plainNet) (exampleFleet 16 ⟨[7, 8]⟩) = some f) (pre post : List CEv)
    (hl : f.log = pre ++ .at 0 0 (.send (.v4 5 5 5 5 5) ⟨[7, 8], .v4 1 1 1 1 1⟩) :: post) :
    .at 0 0 (.bind .sender (.v4 1 1 1 1 1)) ∈ pre ∧ .at 0 0 .close ∉ pre :=
  C96_source _ _ f h 0 0 _ _ pre post hl

/-- The same run on a network that neither copies nor rewrites. -/
def unchangedFleet : List FLabel :=
  (exampleFleet 16 ⟨[7, 8]⟩).take 7 ++ [.proc 0 (.object (.send 0 ⟨.v4 0 0 0 0 9⟩ ⟨[7, 8]⟩)), .deliver 0 1] ++
    (exampleFleet 16 ⟨[7, 8]⟩).drop 13

/-- It happens, and the receivers are called. -/
example : ((Fleet.init.run (fun _ => plainNet) unchangedFleet).map fun f =>
    f.log.any fun e => match e with
      | .at 1 0 (.net (.call 0 q a)) => q.bytes == [7, 8] && a == ⟨.v4 1 1 1 1 1⟩
      | _ => false) = some true := by
  decide +kernel

/-- `C96_at_most` and `C96_flat`: that run. -/
example (f : Fleet) (h : Fleet.init.run (fun _ => plainNet) unchangedFleet = some f) (w : Bytes)
    (k s r : Nat) (p : Packet) (a : Address) (pre post : List CEv)
    (hl : f.log = pre ++ .at k s (.net (.call r p a)) :: post) :
    copies w (arrivedAnywhere f.log) ≤ copies w ((emittedIn f.log).map Prod.snd) ∧
      ∃ d first between, pre = first ++ .at k s (.arrive d) :: between ∧ ∃ dest, (dest, d) ∈ emittedIn first := by
  obtain ⟨b, d, first, between, dest, address, h1, -, -, h2, -⟩ :=
    C96_flat _ _ f h (by intro i dest source; simp [unchangedFleet, exampleFleet]) k s r p a pre post hl
  exact ⟨C96_at_most _ _ f h (by intro i; simp [unchangedFleet, exampleFleet]) w, d, first, between, h1, dest, h2⟩

/-- `C96` and `C96_size`: the run above. -/
example (f : Fleet) (h : Fleet.init.run (fun _ => plainNet) (exampleFleet 16 ⟨[7, 8]⟩) = some f) :=
  And.intro (C96 _ _ f h) (C96_size _ _ f h)

end Ipv8
