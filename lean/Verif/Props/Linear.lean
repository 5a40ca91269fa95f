import Verif.Props.Process
import Verif.Props.Node
/-!
# C76: concurrent `IPv8::new` calls are as good as one after the other
-/

namespace Ipv8

/-- What a step of a process with concurrent `IPv8::new` calls amounts to when each call is one single step:
nothing, until the last bind of a call succeeds, and then the whole call at once. -/
def Process.effect (s : Process) : PLabel → List NLabel
  | .bind t (some a) =>
    match s.calls[t]? with
    | some (.bindSender c r) => [.newInstance c r a]
    | _ => []
  | .start i => [.startInstance i]
  | .dropInstance i => [.dropInstance i]
  | .listenerEnds i => [.thread i .pollError, .reap i]
  | _ => []

/-- The same for a whole run. -/
def Process.effects (U : Udp) (s : Process) : List PLabel → List NLabel
  | [] => []
  | a :: as => s.effect a ++
    match s.step U a with
    | some s' => s'.effects U as
    | none => []

/-- Same instances, same listening threads, nothing else. -/
structure Matches (s : Process) (n : Node) : Prop where
  instances : n.instances.map (fun x => (x.ipv8.config, x.receiverAddress, x.sender.address)) =
    s.instances.map (fun i => (i.config, i.receiver, i.sender))
  threads : n.threads.map (fun t => t.address) = s.listeners
  senders : n.senders = []
  receivers : n.receivers = []

theorem Node.run_append (N : Net) (as bs : List NLabel) (n : Node) :
    n.run N (as ++ bs) = (n.run N as).bind (fun m => m.run N bs) := by
  induction as generalizing n with
  | nil => rfl
  | cons a as ih =>
    simp only [List.cons_append, Node.run]
    cases n.step N a <;> simp [ih]

theorem Process.run_append (U : Udp) (as bs : List PLabel) (s : Process) :
    s.run U (as ++ bs) = (s.run U as).bind (fun m => m.run U bs) := by
  induction as generalizing s with
  | nil => rfl
  | cons a as ih =>
    simp only [List.cons_append, Process.run]
    cases s.step U a <;> simp [ih]

theorem Matches.sockets {s : Process} {n : Node} (m : Matches s n) :
    n.sockets.map Prod.snd = s.instances.flatMap Instance.sockets ++ s.listeners := by
  have h1 : n.instances.flatMap (fun x => [x.receiverAddress, x.sender.address]) =
      s.instances.flatMap Instance.sockets := by
    have := congrArg (List.flatMap (fun x : Config × SocketAddr × SocketAddr => [x.2.1, x.2.2])) m.instances
    simp only [List.flatMap_map] at this
    exact this
  simp only [Node.sockets, m.senders, m.receivers, List.map_nil, List.nil_append, List.map_append,
    List.map_map, List.map_flatMap, List.map_cons, ← m.threads, ← h1]
  rfl

theorem map_eraseIdx' {α β : Type} (f : α → β) (l : List α) (i : Nat) :
    (l.eraseIdx i).map f = (l.map f).eraseIdx i := by
  induction l generalizing i with
  | nil => rfl
  | cons x l ih => cases i <;> simp [ih]

theorem owned_apart {U : Udp} {s : Process} (h : SocketInv U s) :
    s.owned.Pairwise (fun a b => U.conflict a b = false) :=
  h.apart.perm (List.perm_iff_count.mpr h.owned) (fun {x y} hxy => by rw [U.symm]; exact hxy)

theorem canBind_of {N : Net} {s : Process} {n : Node} (m : Matches s n) {requested got : SocketAddr}
    (hr : resolves requested got = true)
    (hc : ∀ b ∈ s.instances.flatMap Instance.sockets ++ s.listeners, N.conflict got b = false) :
    n.canBind N requested got = true := by
  simp only [Node.canBind, hr, Bool.true_and, List.all_eq_true, Bool.not_eq_true']
  intro x hx
  exact hc x.2 (m.sockets ▸ List.mem_map_of_mem hx)

theorem matches_step (N : Net) (s s' : Process) (a : PLabel) (n : Node) (hi : SocketInv N.toUdp s)
    (haddr : ∀ c r, NewPhase.bindSender c r ∈ s.calls → resolves c.receivingAddress.sock r = true)
    (m : Matches s n) (hf : ∀ t ∈ n.threads, t.state.phase = .polling)
    (hs : s.step N.toUdp a = some s') :
    ∃ n', n.run N (s.effect a) = some n' ∧ Matches s' n' ∧
      ∀ t ∈ n'.threads, t.state.phase = .polling := by
  cases a with
  | call c =>
    simp only [Process.step, Option.some.injEq] at hs
    subst hs
    exact ⟨n, rfl, ⟨m.1, m.2, m.3, m.4⟩, hf⟩
  | enter t =>
    simp only [Process.step] at hs
    split at hs
    case h_2 => simp at hs
    split at hs <;> simp only [Option.some.injEq, reduceCtorEq] at hs <;> subst hs <;>
      exact ⟨n, rfl, ⟨m.1, m.2, m.3, m.4⟩, hf⟩
  | build t o =>
    simp only [Process.step] at hs
    split at hs
    case h_2 => simp at hs
    split at hs <;> simp only [Option.some.injEq] at hs <;> subst hs <;>
      exact ⟨n, rfl, ⟨m.1, m.2, m.3, m.4⟩, hf⟩
  | bind t o =>
    simp only [Process.step] at hs
    split at hs
    · next c hc =>
      have he : s.effect (.bind t o) = [] := by
        cases o <;> simp [Process.effect, hc]
      rw [he]
      split at hs
      · simp only [Option.some.injEq] at hs; subst hs
        exact ⟨n, rfl, ⟨m.1, m.2, m.3, m.4⟩, hf⟩
      · split at hs <;> simp only [Option.some.injEq, reduceCtorEq] at hs
        subst hs
        exact ⟨n, rfl, ⟨m.1, m.2, m.3, m.4⟩, hf⟩
    · next c r hc =>
      split at hs
      · simp only [Option.some.injEq] at hs; subst hs
        exact ⟨n, rfl, ⟨m.1, m.2, m.3, m.4⟩, hf⟩
      · next b =>
        split at hs <;> simp only [Option.some.injEq, reduceCtorEq] at hs
        next hb =>
        subst hs
        simp only [Process.canBind, Bool.and_eq_true, List.all_eq_true, Bool.not_eq_true'] at hb
        have hmem : NewPhase.bindSender c r ∈ s.calls := List.mem_of_getElem? hc
        have hperm : s.bound.Perm s.owned := List.perm_iff_count.mpr hi.owned
        have hown : ∀ x ∈ s.instances.flatMap Instance.sockets ++ s.listeners, x ∈ s.bound := by
          intro x hx
          refine hperm.mem_iff.mpr ?_
          simp only [Process.owned, List.append_assoc]
          exact List.mem_append_right _ hx
        have hrm : r ∈ s.calls.flatMap NewPhase.sockets :=
          List.mem_flatMap.mpr ⟨_, hmem, by simp [NewPhase.sockets]⟩
        have hra : ∀ x ∈ s.instances.flatMap Instance.sockets ++ s.listeners, N.conflict r x = false := by
          have := owned_apart hi
          simp only [Process.owned, List.append_assoc] at this
          exact fun x hx => (List.pairwise_append.mp this).2.2 r hrm x hx
        have hrb : r ∈ s.bound := hperm.mem_iff.mpr (by
          simp only [Process.owned, List.append_assoc]
          exact List.mem_append_left _ hrm)
        have h1 := canBind_of (N := N) m (haddr c r hmem) hra
        have h2 := canBind_of (N := N) m hb.1 (fun x hx => hb.2 x (hown x hx))
        have h3 : N.conflict b r = false := hb.2 r hrb
        simp only [Process.effect, hc, Node.run, Node.step, h1, h2, h3, Bool.not_false, Bool.and_true,
          if_true]
        exact ⟨_, rfl, ⟨by simp [m.1], by simpa using m.2, m.3, m.4⟩, hf⟩
    · simp at hs
  | start i =>
    simp only [Process.step] at hs
    split at hs <;> simp only [Option.some.injEq, reduceCtorEq] at hs
    next x hx =>
    subst hs
    have hlen := congrArg (fun l => l[i]?) m.1
    simp only [List.getElem?_map, hx, Option.map_some] at hlen
    cases hn : n.instances[i]? with
    | none => rw [hn] at hlen; simp at hlen
    | some y =>
      rw [hn] at hlen
      simp only [Option.map_some, Option.some.injEq, Prod.mk.injEq] at hlen
      simp only [Process.effect, Node.run, Node.step, hn]
      refine ⟨_, rfl, ⟨?_, ?_, m.3, m.4⟩, ?_⟩
      · simp only [map_eraseIdx', m.1]
      · simp [m.2, hlen.2.1]
      · intro t ht
        simp only [List.mem_append, List.mem_singleton] at ht
        rcases ht with ht | rfl
        · exact hf t ht
        · rfl
  | dropInstance i =>
    simp only [Process.step] at hs
    split at hs <;> simp only [Option.some.injEq, reduceCtorEq] at hs
    next x hx =>
    subst hs
    have hlen := congrArg (fun l => l[i]?) m.1
    simp only [List.getElem?_map, hx, Option.map_some] at hlen
    cases hn : n.instances[i]? with
    | none => rw [hn] at hlen; simp at hlen
    | some y =>
      simp only [Process.effect, Node.run, Node.step, hn]
      refine ⟨_, rfl, ⟨?_, m.2, m.3, m.4⟩, hf⟩
      simp only [map_eraseIdx', m.1]
  | listenerEnds i =>
    simp only [Process.step] at hs
    split at hs <;> simp only [Option.some.injEq, reduceCtorEq] at hs
    next x hx =>
    subst hs
    have hlen := congrArg (fun l => l[i]?) m.2
    simp only [List.getElem?_map, hx] at hlen
    cases hn : n.threads[i]? with
    | none => rw [hn] at hlen; simp at hlen
    | some y =>
      have hph := hf y (List.mem_of_getElem? hn)
      obtain ⟨p, q, e1, e2, e3, e4⟩ := split_at hn
      have hget : ∀ z : Thread, (p ++ z :: q)[i]? = some z := by intro z; rw [← e4]; simp
      have hera : ∀ z : Thread, (p ++ z :: q).eraseIdx i = p ++ q := by
        intro z; rw [← e4]; simp [List.eraseIdx_append_of_length_le]
      simp only [Process.effect, Node.run, Node.step, hn, Listener.step, hph, e2, hget, hera]
      refine ⟨_, rfl, ⟨m.1, ?_, m.3, m.4⟩, ?_⟩
      · rw [← m.2, ← e3, map_eraseIdx']
      · intro t ht
        exact hf t (by rw [e1]; simp only [List.mem_append, List.mem_cons] at ht ⊢; exact ht.imp_right .inr)

/-- C76. In every run of a process in which any number of threads call `IPv8::new` at the same time, start
instances and drop them, the calls that succeed might as well have been made one after the other, each at
the moment of its last step: that sequential history is possible too, and leads to the same instances with
the same configurations and addresses, and the same listening threads, in the same order. -/
theorem C76 (N : Net) (as : List PLabel) (s : Process) (h : Process.init.run N.toUdp as = some s) :
    ∃ n, Node.init.run N (Process.init.effects N.toUdp as) = some n ∧ Matches s n := by
  have key : ∀ (as pre : List PLabel) (s0 s : Process) (n : Node),
      Process.init.run N.toUdp pre = some s0 → Matches s0 n →
      (∀ t ∈ n.threads, t.state.phase = .polling) → s0.run N.toUdp as = some s →
      ∃ n', n.run N (s0.effects N.toUdp as) = some n' ∧ Matches s n' := by
    intro as
    induction as with
    | nil =>
      intro pre s0 s n _ hm _ hr
      simp only [Process.run, Option.some.injEq] at hr
      exact ⟨n, rfl, hr ▸ hm⟩
    | cons a as ih =>
      intro pre s0 s n hpre hm hf hr
      simp only [Process.run] at hr
      split at hr
      case h_2 => simp at hr
      next s1 hs =>
      obtain ⟨n1, hn1, hm1, hf1⟩ := matches_step N s0 s1 a n (socketInv_reachable hpre)
        (addresses_reachable hpre).1 hm hf hs
      have hpre1 : Process.init.run N.toUdp (pre ++ [a]) = some s1 := by
        rw [Process.run_append, hpre]
        simp [Process.run, hs]
      obtain ⟨n2, hn2, hm2⟩ := ih (pre ++ [a]) s1 s n1 hpre1 hm1 hf1 hr
      refine ⟨n2, ?_, hm2⟩
      simp only [Process.effects, hs, Node.run_append, hn1, Option.bind_some, hn2]
  exact key as [] Process.init s Node.init rfl ⟨rfl, rfl, rfl, rfl⟩ (by simp [Node.init]) h

/-- Is this the creation of an instance? -/
def NLabel.isNew : NLabel → Bool
  | .newInstance .. => true
  | _ => false

theorem effect_count (U : Udp) (s s' : Process) (a : PLabel) (hs : s.step U a = some s') :
    s'.number (NewPhase.isReturned .ok) =
      s.number (NewPhase.isReturned .ok) + (s.effect a).countP NLabel.isNew := by
  have set : ∀ (t : Nat) (x y : NewPhase), s.calls[t]? = some x → x.isReturned .ok = false →
      (s.calls.set t y).countP (NewPhase.isReturned .ok) =
        s.calls.countP (NewPhase.isReturned .ok) + if y.isReturned .ok then 1 else 0 := by
    intro t x y hx hf
    obtain ⟨p, q, e1, e2, -, -⟩ := split_at hx
    rw [e2, e1]
    simp only [List.countP_append, List.countP_cons, hf, Bool.false_eq_true, if_false]
    omega
  cases a with
  | call c =>
    simp only [Process.step, Option.some.injEq] at hs
    subst hs
    simp [Process.number, Process.effect, NewPhase.isReturned]
  | enter t =>
    simp only [Process.step] at hs
    split at hs
    case h_2 => simp at hs
    next c hc =>
    split at hs <;> simp only [Option.some.injEq, reduceCtorEq] at hs <;> subst hs <;>
      simp [Process.number, Process.effect, set t _ _ hc rfl, NewPhase.isReturned]
  | build t o =>
    simp only [Process.step] at hs
    split at hs
    case h_2 => simp at hs
    next c hc =>
    split at hs <;> simp only [Option.some.injEq] at hs <;> subst hs <;>
      simp [Process.number, Process.effect, set t _ _ hc rfl, NewPhase.isReturned]
  | bind t o =>
    simp only [Process.step] at hs
    split at hs
    · next c hc =>
      split at hs
      · simp only [Option.some.injEq] at hs; subst hs
        simp [Process.number, Process.effect, set t _ _ hc rfl, NewPhase.isReturned]
      · split at hs <;> simp only [Option.some.injEq, reduceCtorEq] at hs
        subst hs
        simp [Process.number, Process.effect, set t _ _ hc rfl, NewPhase.isReturned, hc]
    · next c r hc =>
      split at hs
      · simp only [Option.some.injEq] at hs; subst hs
        simp [Process.number, Process.effect, set t _ _ hc rfl, NewPhase.isReturned]
      · split at hs <;> simp only [Option.some.injEq, reduceCtorEq] at hs
        subst hs
        simp [Process.number, Process.effect, set t _ _ hc rfl, NewPhase.isReturned, hc, NLabel.isNew]
    · simp at hs
  | start i =>
    simp only [Process.step] at hs
    split at hs <;> simp only [Option.some.injEq, reduceCtorEq] at hs
    subst hs; simp [Process.number, Process.effect, NLabel.isNew]
  | dropInstance i =>
    simp only [Process.step] at hs
    split at hs <;> simp only [Option.some.injEq, reduceCtorEq] at hs
    subst hs; simp [Process.number, Process.effect, NLabel.isNew]
  | listenerEnds i =>
    simp only [Process.step] at hs
    split at hs <;> simp only [Option.some.injEq, reduceCtorEq] at hs
    subst hs; simp [Process.number, Process.effect, NLabel.isNew]

/-- C76. The sequential history creates exactly one instance for every call that returned `Ok`: nothing is
made up and nothing left out. -/
theorem C76_one_each (U : Udp) (as : List PLabel) (s : Process) (h : Process.init.run U as = some s) :
    (Process.init.effects U as).countP NLabel.isNew = s.number (NewPhase.isReturned .ok) := by
  have key : ∀ (as : List PLabel) (s0 s : Process), s0.run U as = some s →
      s0.number (NewPhase.isReturned .ok) + (s0.effects U as).countP NLabel.isNew =
        s.number (NewPhase.isReturned .ok) := by
    intro as
    induction as with
    | nil =>
      intro s0 s hr
      simp only [Process.run, Option.some.injEq] at hr
      subst hr; rfl
    | cons a as ih =>
      intro s0 s hr
      simp only [Process.run] at hr
      split at hr
      case h_2 => simp at hr
      next s1 hs =>
      rw [← ih s1 s hr, effect_count U s0 s1 a hs]
      simp only [Process.effects, hs, List.countP_append]
      omega
  have := key as _ s h
  simpa [Process.init, Process.number] using this

/-! ## What concurrency does change: failures -/

/-- A call that asks for a port that is bound cannot but fail. -/
theorem bind_taken (U : Udp) (s : Process) (t : Nat) (a : Option SocketAddr) (s' : Process)
    (req got : SocketAddr)
    (hc : (∃ c, s.calls[t]? = some (.bindReceiver c) ∧ c.receivingAddress.sock = req) ∨
      ∃ c r, s.calls[t]? = some (.bindSender c r) ∧ c.sendingAddress.sock = req)
    (hp : req.port ≠ 0) (hg : Spec.Gives req got) (hb : got ∈ s.bound)
    (h : s.step U (.bind t a) = some s') : a = none := by
  cases a with
  | none => rfl
  | some a =>
    exfalso
    have hcan : s.canBind U req a = true := by
      rcases hc with ⟨c, hc, he⟩ | ⟨c, r, hc, he⟩ <;> simp only [Process.step, hc, he] at h <;>
        split at h
      · assumption
      · simp at h
      · assumption
      · simp at h
    simp only [Process.canBind, Bool.and_eq_true, List.all_eq_true, Bool.not_eq_true'] at hcan
    have := hcan.2 got hb
    rw [gives_unique hp ((resolves_iff _ _).mp hcan.1) hg, U.self] at this
    simp at this

/-- Configuration with these two ports. -/
def ports (receiving sending : UInt16) : Config :=
  { Config.default with
    receivingAddress := ⟨.v4 0 0 0 0 receiving⟩
    sendingAddress := ⟨.v4 0 0 0 0 sending⟩ }

/-- An instance on ports 5 and 8 is alive.  Two more calls start, for ports 6 and 8 and for ports 6 and 9;
the first of them has bound port 6. -/
def duringOther : List PLabel :=
  [.call (ports 5 8), .call (ports 6 8), .call (ports 6 9),
   .enter 0, .build 0 (.ok ()), .enter 1, .enter 2,
   .bind 0 (some (.v4 0 0 0 0 5)), .bind 0 (some (.v4 0 0 0 0 8)),
   .bind 1 (some (.v4 0 0 0 0 6))]

/-- C76. Failures are different: a call can fail only because of another call that fails.  Here the second
call is bound to fail, as its sending port is taken, but until it does it holds port 6, and the third call
cannot but fail at that moment.  Yet as single steps the third call succeeds at any time: before the second
call, and after it. -/
theorem C76_failures : ∃ s, Process.init.run plainNet.toUdp duringOther = some s ∧
    (∀ a s', s.step plainNet.toUdp (.bind 1 a) = some s' → a = none) ∧
    (∀ a s', s.step plainNet.toUdp (.bind 2 a) = some s' → a = none) ∧
    ∃ n, Node.init.run plainNet (Process.init.effects plainNet.toUdp duringOther) = some n ∧
      (n.step plainNet (.newInstance (ports 6 9) (.v4 0 0 0 0 6) (.v4 0 0 0 0 9))).isSome = true := by
  refine ⟨_, rfl, ?_, ?_, _, rfl, rfl⟩
  · exact fun a s' h => bind_taken _ _ 1 a s' _ (.v4 0 0 0 0 8) (.inr ⟨_, _, rfl, rfl⟩) (by decide) ((resolves_iff _ _).mp rfl)
      (by decide +kernel) h
  · exact fun a s' h => bind_taken _ _ 2 a s' _ (.v4 0 0 0 0 6) (.inl ⟨_, rfl, rfl⟩) (by decide) ((resolves_iff _ _).mp rfl)
      (by decide +kernel) h

/-! ## Cases for the theorems above -/

/-- `C76_one_each`: one of the three calls of `duringOther` has succeeded. -/
example (s : Process) (h : Process.init.run plainNet.toUdp duringOther = some s) :
    (Process.init.effects plainNet.toUdp duringOther).countP NLabel.isNew = 1 := by
  rw [C76_one_each plainNet.toUdp duringOther s h]
  cases h
  decide +kernel

end Ipv8
