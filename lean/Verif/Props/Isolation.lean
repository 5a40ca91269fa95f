import Verif.SpecSocket
import Verif.Props.Node
import Verif.Props.Backlog
/-!
# C66 (continued), C71: what reaches a socket, and what a listening thread depends on
-/

namespace Ipv8

open Spec

/-! ## C66: arrivals -/

/-- C66. A datagram that reaches an open socket arrives there, once, and nowhere else; no socket is opened
or closed by it. -/
theorem C66_arrive (N : Net) (ls : List NLabel) (n : Node) (h : Node.init.run N ls = some n)
    (dest : SocketAddr) (d : Datagram) (s : Nat) (a : SocketAddr) (hs : (s, a) ∈ n.sockets)
    (hr : N.reaches a dest = true) :
    ∃ n', n.step N (.arrive dest d) = some n' ∧ n'.sockets = n.sockets ∧
      history s n'.log = history s n.log ++ [.arrive d] ∧
      ∀ t, t ≠ s → history t n'.log = history t n.log := by
  have hi := node_run N ls _ _ (Node.init_inv N) h
  refine ⟨n.arrive N dest d, rfl, ?_, ?_⟩
  · rw [Node.sockets_eq, Node.sockets_eq, Node.arrive_objs, List.map_map]
    simp [Function.comp_def, Obj.arrive_address]
  have hlog : ∀ t, history t (n.arrive N dest d).log = history t n.log ++
      if n.objs.any (fun x => x.1 == t && N.reaches x.2.address dest) then [.arrive d] else [] := by
    intro t
    rw [← history_arrive N dest d t n.objs hi.nodup, ← history_append]
    simp only [Node.arrive, n.sockets_eq, List.filter_map, List.map_map, Function.comp_def]
  rw [n.sockets_eq] at hs
  obtain ⟨x, hx, he⟩ := List.mem_map.mp hs
  simp only [Prod.mk.injEq] at he
  obtain ⟨rfl, rfl⟩ := he
  constructor
  · rw [hlog, if_pos (List.any_eq_true.mpr ⟨x, hx, by simp [hr]⟩)]
  · intro t ht
    rw [hlog, if_neg, List.append_nil]
    intro hany
    obtain ⟨y, hy, hy'⟩ := List.any_eq_true.mp hany
    simp only [Bool.and_eq_true, beq_iff_eq] at hy'
    have := reaches_unique hi hy hx hy'.2 hr
    rw [this] at hy'
    exact ht hy'.1.symm

/-! ## C66: what the calls do -/

/-- C66. `new` succeeds exactly for addresses that fit the request and conflict with no open socket; the new
socket has never been used before, and no other socket is affected. -/
theorem C66_bind (N : Net) (ls : List NLabel) (n : Node) (h : Node.init.run N ls = some n)
    (requested : Address) (got : SocketAddr) (role : Role) :
    let label := match role with
      | .sender => NLabel.newSender requested got
      | .receiver => NLabel.newReceiver requested got
    ((∃ n', n.step N label = some n') ↔
      Gives requested.sock got ∧ ∀ s a, (s, a) ∈ n.sockets → N.conflict got a = false) ∧
    ∀ n', n.step N label = some n' → ∃ s, history s n.log = [] ∧ history s n'.log = [.bind role got] ∧
      (∀ t, t ≠ s → history t n'.log = history t n.log) ∧
      (∀ t a, (t, a) ∈ n'.sockets ↔ (t, a) ∈ n.sockets ∨ (t = s ∧ a = got)) ∧
      n'.threads = n.threads ∧ n'.instances = n.instances := by
  have hi := node_run N ls _ _ (Node.init_inv N) h
  have hb : n.canBind N requested.sock got = true ↔
      Gives requested.sock got ∧ ∀ s a, (s, a) ∈ n.sockets → N.conflict got a = false := by
    simp only [Node.canBind, Bool.and_eq_true, List.all_eq_true, Bool.not_eq_true', Prod.forall, resolves_iff]
  have hfresh : history n.next n.log = [] := hi.fresh n.next (Nat.le_refl _)
  have hlog : ∀ e : NEv, history n.next (n.log ++ [(n.next, e)]) = [e] := by
    intro e; rw [history_append, hfresh]; simp [history]
  have hoth : ∀ (e : NEv) t, t ≠ n.next → history t (n.log ++ [(n.next, e)]) = history t n.log := by
    intro e t ht
    rw [history_append]
    simp [history, Ne.symm ht]
  cases role with
  | sender =>
    refine ⟨?_, ?_⟩
    · rw [← hb]
      simp only [Node.step]
      constructor
      · rintro ⟨n', hn⟩
        split at hn
        · assumption
        · simp at hn
      · intro hc; simp [hc]
    · intro n' hn
      simp only [Node.step] at hn
      split at hn
      · simp only [Option.some.injEq] at hn
        subst hn
        refine ⟨n.next, hfresh, hlog _, hoth _, ?_, rfl, rfl⟩
        intro t a
        simp only [Node.sockets, List.map_append, List.map_cons, List.map_nil, List.mem_append,
          List.mem_cons, List.not_mem_nil, or_false, Prod.mk.injEq]
        grind
      · simp at hn
  | receiver =>
    refine ⟨?_, ?_⟩
    · rw [← hb]
      simp only [Node.step]
      constructor
      · rintro ⟨n', hn⟩
        split at hn
        · assumption
        · simp at hn
      · intro hc; simp [hc]
    · intro n' hn
      simp only [Node.step] at hn
      split at hn
      · simp only [Option.some.injEq] at hn
        subst hn
        refine ⟨n.next, hfresh, hlog _, hoth _, ?_, rfl, rfl⟩
        intro t a
        simp only [Node.sockets, List.map_append, List.map_cons, List.map_nil, List.mem_append,
          List.mem_cons, List.not_mem_nil, or_false, Prod.mk.injEq]
        grind
      · simp at hn

/-- C66. The same for an instance, which binds two sockets. -/
theorem C66_bind_instance (N : Net) (ls : List NLabel) (n : Node) (h : Node.init.run N ls = some n)
    (config : Config) (gotR gotS : SocketAddr) :
    ((∃ n', n.step N (.newInstance config gotR gotS) = some n') ↔
      Gives config.receivingAddress.sock gotR ∧ Gives config.sendingAddress.sock gotS ∧
      (∀ s a, (s, a) ∈ n.sockets → N.conflict gotR a = false ∧ N.conflict gotS a = false) ∧
      N.conflict gotS gotR = false) ∧
    ∀ n', n.step N (.newInstance config gotR gotS) = some n' →
      ∃ x r s, x.receiverSocket = r ∧ x.sender.socket = s ∧ r ≠ s ∧
      n'.instances = n.instances ++ [x] ∧ x.ipv8.config = config ∧ x.receiverAddress = gotR ∧
      x.sender.address = gotS ∧
      history r n.log = [] ∧ history s n.log = [] ∧
      history r n'.log = [.bind .receiver gotR] ∧ history s n'.log = [.bind .sender gotS] ∧
      (∀ t, t ≠ r → t ≠ s → history t n'.log = history t n.log) ∧
      n'.threads = n.threads ∧ n'.senders = n.senders ∧ n'.receivers = n.receivers := by
  have hi := node_run N ls _ _ (Node.init_inv N) h
  constructor
  · simp only [Node.step]
    have hb : (n.canBind N config.receivingAddress.sock gotR &&
        n.canBind N config.sendingAddress.sock gotS && !N.conflict gotS gotR) = true ↔
      Gives config.receivingAddress.sock gotR ∧ Gives config.sendingAddress.sock gotS ∧
      (∀ s a, (s, a) ∈ n.sockets → N.conflict gotR a = false ∧ N.conflict gotS a = false) ∧
      N.conflict gotS gotR = false := by
      simp only [Node.canBind, Bool.and_eq_true, List.all_eq_true, Bool.not_eq_true', Prod.forall, resolves_iff]
      grind
    rw [← hb]
    constructor
    · rintro ⟨n', hn⟩
      split at hn
      · assumption
      · simp at hn
    · intro hc
      rw [if_pos hc]
      exact ⟨_, rfl⟩
  · intro n' hn
    simp only [Node.step] at hn
    split at hn
    · simp only [Option.some.injEq] at hn
      have h0 : history n.next n.log = [] := hi.fresh _ (Nat.le_refl _)
      have h1 : history (n.next + 1) n.log = [] := hi.fresh _ (by omega)
      subst hn
      refine ⟨_, n.next, n.next + 1, rfl, rfl, by omega, rfl, rfl, rfl, rfl, h0, h1, ?_, ?_, ?_, rfl, rfl, rfl⟩
      · rw [history_append, h0]; simp [history]
      · rw [history_append, h1]; simp [history]
      · intro t ht hs
        rw [history_append]
        simp [history, Ne.symm ht, Ne.symm hs]
    · simp at hn

/-- C66. `send` hands exactly the packet's bytes, with the socket's own address as source, to the network
for the given address, through this socket; nothing else happens. -/
theorem C66_send (N : Net) (n : Node) (k : Nat) (x : OpenSender)
    (address : Address) (packet : Packet) :
    (n.senders[k]? = some x → n.step N (.send k address packet) =
      some { n with log := n.log ++ [(x.socket, .send address.sock ⟨packet.bytes, x.address⟩)] }) ∧
    (∀ y, n.instances[k]? = some y → y.sender = x → n.step N (.sendInstance k address packet) =
      some { n with log := n.log ++ [(x.socket, .send address.sock ⟨packet.bytes, x.address⟩)] }) := by
  constructor
  · intro h
    simp only [Node.step, h]
    rfl
  · rintro y h rfl
    simp only [Node.step, h]
    rfl

/-- C66. `start` always succeeds; it makes a listening thread on the same socket, with the receivers that
were added, in order, the buffer size of the configuration, and everything that arrived since the socket was
bound still in the queue; the other sockets and objects are left alone. -/
theorem C66_start (N : Net) (ls : List NLabel) (n : Node) (h : Node.init.run N ls = some n) (k : Nat)
    (x : OpenReceiver) (hx : n.receivers[k]? = some x) (config : Config) :
    ∃ n' t, n.step N (.startReceiver k config) = some n' ∧ n'.threads = n.threads ++ [t] ∧
      n'.receivers = n.receivers.eraseIdx k ∧ n'.senders = n.senders ∧ n'.instances = n.instances ∧
      t.socket = x.socket ∧ t.address = x.address ∧
      t.listener.receivers = registeredIn (history x.socket n.log) ∧
      t.listener.buffersize = config.buffersize ∧
      t.state = t.listener.init (arrivedIn (history x.socket n.log)) ∧
      n'.log = n.log ++ [(x.socket, .start config.buffersize)] := by
  obtain ⟨h1, h2⟩ := (C66_waiting N ls n h).1 x (List.mem_of_getElem? hx)
  simp only [Node.step, hx]
  exact ⟨_, _, rfl, rfl, rfl, rfl, rfl, rfl, rfl, h2.symm, rfl, by rw [h1], rfl⟩

/-- C66. The same for an instance; what differs is that its sending socket is closed. -/
theorem C66_start_instance (N : Net) (ls : List NLabel) (n : Node) (h : Node.init.run N ls = some n)
    (i : Nat) (x : OpenInstance) (hx : n.instances[i]? = some x) :
    ∃ n' t, n.step N (.startInstance i) = some n' ∧ n'.threads = n.threads ++ [t] ∧
      n'.instances = n.instances.eraseIdx i ∧ n'.senders = n.senders ∧ n'.receivers = n.receivers ∧
      t.socket = x.receiverSocket ∧ t.address = x.receiverAddress ∧
      t.listener.receivers = registeredIn (history x.receiverSocket n.log) ∧
      t.listener.buffersize = x.ipv8.config.buffersize ∧
      t.state = t.listener.init (arrivedIn (history x.receiverSocket n.log)) ∧
      n'.log = n.log ++ [(x.receiverSocket, .start x.ipv8.config.buffersize), (x.sender.socket, .close)] := by
  obtain ⟨h1, h2⟩ := (C66_waiting N ls n h).2 x (List.mem_of_getElem? hx)
  simp only [Node.step, hx]
  exact ⟨_, _, rfl, rfl, rfl, rfl, rfl, rfl, rfl, h2.symm, rfl, by rw [h1], rfl⟩

/-! ## C71 -/

theorem mem_eraseIdx_of_ne {α : Type} {l : List α} {k : Nat} {x y : α} (hx : l[k]? = some x) (hy : y ∈ l)
    (hne : y ≠ x) : y ∈ l.eraseIdx k := by
  obtain ⟨p, q, rfl, -, her, -⟩ := split_at hx
  rw [her]
  simp only [List.mem_append, List.mem_cons] at hy ⊢
  rcases hy with h | h | h
  · exact .inl h
  · exact absurd h hne
  · exact .inr h

theorem mem_set_of_ne {α : Type} {l : List α} {k : Nat} {x y z : α} (hx : l[k]? = some x) (hy : y ∈ l)
    (hne : y ≠ x) : y ∈ l.set k z := by
  obtain ⟨p, q, rfl, hset, -, -⟩ := split_at hx
  rw [hset]
  simp only [List.mem_append, List.mem_cons] at hy ⊢
  rcases hy with h | h | h
  · exact .inl h
  · exact absurd h hne
  · exact .inr (.inr h)

theorem thread_mem_objs {n : Node} {t : Thread} (ht : t ∈ n.threads) :
    (t.socket, Obj.thread t.address t.listener t.state) ∈ n.objs := by
  simp only [objsOf, List.mem_append, List.mem_map]
  exact .inr ⟨t, ht, rfl⟩

theorem thread_unique {N : Net} {n : Node} (hi : n.Inv N) {t u : Thread} (ht : t ∈ n.threads)
    (hu : u ∈ n.threads) (he : u.socket = t.socket) : u = t := by
  have := eq_of_fst n.objs hi.nodup _ (thread_mem_objs hu) _ (thread_mem_objs ht) he
  simp only [Prod.mk.injEq, Obj.thread.injEq] at this
  rcases t with ⟨a, b, c, d⟩
  rcases u with ⟨a', b', c', d'⟩
  simp only at this ⊢
  simp [this]

theorem thread_step (N : Net) (n n' : Node) (x : NLabel) (hi : n.Inv N) (hs : n.step N x = some n')
    (t : Thread) (ht : t ∈ n.threads) :
    (∃ t' ∈ n'.threads, t'.socket = t.socket ∧ t'.address = t.address ∧ t'.listener = t.listener ∧
      t.listener.run t.state (stepFor N n t.socket x) = some t'.state) ∨
    (stepFor N n t.socket x = [] ∧ (∃ c, t.state.phase = .stopped c) ∧ (∃ k, x = .reap k) ∧
      n'.log = n.log ++ [(t.socket, .close)]) := by
  have hsame : ∀ T : List Thread, t ∈ T → stepFor N n t.socket x = [] →
      ∃ t' ∈ T, t'.socket = t.socket ∧ t'.address = t.address ∧ t'.listener = t.listener ∧
        t.listener.run t.state (stepFor N n t.socket x) = some t'.state := by
    intro T hT h0
    exact ⟨t, hT, rfl, rfl, rfl, by rw [h0]; rfl⟩
  cases x with
  | arrive dest d =>
    left
    simp only [Node.step, Option.some.injEq] at hs
    subst hs
    have hany : n.threads.any (fun u => u.socket == t.socket && N.reaches u.address dest) =
        N.reaches t.address dest := by
      cases hr : N.reaches t.address dest with
      | true => exact List.any_eq_true.mpr ⟨t, ht, by simp [hr]⟩
      | false =>
        rw [List.any_eq_false]
        intro u hu
        by_cases he : u.socket = t.socket
        · rw [thread_unique hi ht hu he, hr]; simp
        · simp [he]
    simp only [stepFor, hany, Node.arrive]
    cases hr : N.reaches t.address dest with
    | false =>
      exact ⟨t, List.mem_map.mpr ⟨t, ht, by simp [hr]⟩, rfl, rfl, rfl, rfl⟩
    | true =>
      refine ⟨{ t with state := (t.listener.step t.state (.arrive d)).getD t.state },
        List.mem_map.mpr ⟨t, ht, by simp [hr]⟩, rfl, rfl, rfl, ?_⟩
      simp [Listener.run, Listener.step]
  | thread k y =>
    left
    simp only [Node.step] at hs
    split at hs
    · next u hu =>
      have hstep : ∃ s', u.listener.step u.state y = some s' ∧
          n'.threads = n.threads.set k { u with state := s' } := by
        split at hs
        · simp at hs
        · split at hs
          · next s' hs' =>
            simp only [Option.some.injEq] at hs
            exact ⟨s', hs', by rw [← hs]⟩
          · simp at hs
      obtain ⟨s', h1, h2⟩ := hstep
      have hum : u ∈ n.threads := List.mem_of_getElem? hu
      by_cases he : u.socket = t.socket
      · have := thread_unique hi ht hum he
        subst this
        refine ⟨{ u with state := s' }, ?_, rfl, rfl, rfl, ?_⟩
        · obtain ⟨p, q, hpq, hset, -, -⟩ := split_at hu
          rw [h2, hset]; simp
        · simp [stepFor, hu, Listener.run, h1]
      · refine hsame _ ?_ (by simp [stepFor, hu, he])
        rw [h2]
        exact mem_set_of_ne hu ht (fun e => he (by rw [e]))
    · simp at hs
  | reap k =>
    simp only [Node.step] at hs
    split at hs
    · next u hu =>
      have hum : u ∈ n.threads := List.mem_of_getElem? hu
      split at hs
      · next c hc =>
        simp only [Option.some.injEq] at hs
        by_cases he : u.socket = t.socket
        · have := thread_unique hi ht hum he
          subst this
          exact .inr ⟨rfl, ⟨c, hc⟩, ⟨k, rfl⟩, by rw [← hs]⟩
        · left
          refine hsame _ ?_ rfl
          rw [← hs]
          exact mem_eraseIdx_of_ne hu ht (fun e => he (by rw [e]))
      · simp at hs
    · simp at hs
  | _ =>
    left
    simp only [Node.step] at hs
    (repeat' split at hs) <;> simp only [Option.some.injEq, reduceCtorEq] at hs <;> subst hs <;>
      exact hsame _ (by simp [ht]) rfl

theorem life_open {a : SocketAddr} {l : List NEv} (hl : Life a l) : NEv.close ∉ l := by
  rcases hl with h | h | ⟨t, b, xs, st, hr, hrun, rfl⟩
  · exact (senderLife_only h).2.2.2
  · exact (receiverLife_only h).2.2.2.2.1
  · intro hm
    obtain ⟨-, -, -, -, o5⟩ := observed_facts _ _ _ _ hrun
    rcases List.mem_append.mp hm with hm | hm
    · exact (receiverLife_only hr).2.2.2.2.1 hm
    · rcases List.mem_cons.mp hm with hm | hm
      · simp at hm
      · rcases o5 _ hm with ⟨_, h⟩ | ⟨_, h⟩ <;> simp at h

/-- Nothing is a step of a thread on a socket that is closed. -/
theorem stepsFor_closed (N : Net) (s : Nat) : ∀ (ls : List NLabel) (n : Node), n.Inv N → s < n.next →
    s ∉ n.objs.map Prod.fst → stepsFor N s n ls = [] := by
  intro ls
  induction ls with
  | nil => intro n _ _ _; rfl
  | cons x ls ih =>
    intro n hi hlt hn
    have hno : ∀ u ∈ n.threads, u.socket ≠ s := by
      intro u hu he
      exact hn (List.mem_map.mpr ⟨_, thread_mem_objs hu, he⟩)
    have h0 : stepFor N n s x = [] := by
      cases x with
      | arrive dest d =>
        simp only [stepFor]
        rw [if_neg]
        intro hany
        obtain ⟨u, hu, hu'⟩ := List.any_eq_true.mp hany
        simp only [Bool.and_eq_true, beq_iff_eq] at hu'
        exact hno u hu hu'.1
      | thread k y =>
        simp only [stepFor]
        cases hk : n.threads[k]? with
        | none => simp
        | some u => simp [hno u (List.mem_of_getElem? hk)]
      | _ => rfl
    simp only [stepsFor, h0, List.nil_append]
    split
    · next m hm =>
      obtain ⟨-, h1, h2⟩ := closed_step N n m x hi hm s hlt hn
      exact ih m (node_step N n m x hi hm) h1 h2
    · rfl

/-- C71. A listening thread depends on nothing but its own steps and the datagrams that reach its address:
whatever else the process does, the thread's state is what these alone make of it, its receivers and buffer
size stay what they were at `start`, and it ends only after it stopped by itself. -/
theorem C71 (N : Net) (ls more : List NLabel) (n n' : Node) (h : Node.init.run N ls = some n)
    (h' : n.run N more = some n') (t : Thread) (ht : t ∈ n.threads) :
    (∃ t' ∈ n'.threads, t'.socket = t.socket ∧ t'.address = t.address ∧ t'.listener = t.listener ∧
      t.listener.run t.state (stepsFor N t.socket n more) = some t'.state) ∨
    (.close ∈ history t.socket n'.log ∧
      ∃ s c, t.listener.run t.state (stepsFor N t.socket n more) = some s ∧ s.phase = .stopped c) := by
  have hi := node_run N ls _ _ (Node.init_inv N) h
  clear h
  have hgrow : ∀ (ls : List NLabel) (n n' : Node), n.run N ls = some n' → n.log <+: n'.log := by
    intro ls
    induction ls with
    | nil =>
      intro n n' h
      simp only [Node.run, Option.some.injEq] at h
      exact h ▸ List.prefix_refl _
    | cons x ls ih =>
      intro n n' h
      simp only [Node.run] at h
      split at h
      · next m hm =>
        refine List.IsPrefix.trans ?_ (ih m n' h)
        cases x <;> simp only [Node.step] at hm <;> (repeat' split at hm) <;>
          simp only [Option.some.injEq, reduceCtorEq] at hm <;> subst hm <;> simp [Node.arrive]
      · simp at h
  induction more generalizing n t with
  | nil =>
    simp only [Node.run, Option.some.injEq] at h'
    subst h'
    exact .inl ⟨t, ht, rfl, rfl, rfl, rfl⟩
  | cons x more ih =>
    simp only [Node.run] at h'
    split at h'
    · next m hm =>
      have hsf : stepsFor N t.socket n (x :: more) =
          stepFor N n t.socket x ++ stepsFor N t.socket m more := by
        simp [stepsFor, hm]
      rw [hsf]
      rcases thread_step N n m x hi hm t ht with ⟨t1, ht1, e1, e2, e3, e4⟩ | ⟨e1, ⟨c, e2⟩, -, e3⟩
      · rcases ih m h' t1 ht1 (node_step N n m x hi hm) with
          ⟨t2, ht2, f1, f2, f3, f4⟩ | ⟨f1, s, c, f3, f4⟩
        · refine .inl ⟨t2, ht2, f1.trans e1, f2.trans e2, f3.trans e3, ?_⟩
          rw [run_append, e4]
          rw [e1, e3] at f4
          exact f4
        · refine .inr ⟨e1 ▸ f1, s, c, ?_, f4⟩
          rw [run_append, e4]; rw [e1, e3] at f3; exact f3
      · have hm' := node_step N n m x hi hm
        have hlt : t.socket < n.next := hi.below _ (thread_mem_objs ht)
        have hlt' : n.next ≤ m.next := by
          cases x <;> simp only [Node.step] at hm <;> (repeat' split at hm) <;>
            simp only [Option.some.injEq, reduceCtorEq] at hm <;> subst hm <;> simp [Node.arrive]
        have hclosed : NEv.close ∈ history t.socket m.log := by
          rw [e3, history_append]; simp [history]
        have hgone : t.socket ∉ m.objs.map Prod.fst := by
          intro hmem
          obtain ⟨y, hy, hye⟩ := List.mem_map.mp hmem
          have hl := (hm'.fits y hy).life
          rw [hye] at hl
          exact life_open hl hclosed
        refine .inr ⟨?_, t.state, c, by
          rw [e1, stepsFor_closed N t.socket more m hm' (by omega) hgone]; rfl, e2⟩
        obtain ⟨ext, hext⟩ := hgrow more m n' h'
        rw [← hext, e3, history_append, history_append]
        simp [history]
    · simp at h'

/-- C71. So delivery in a busy process is as in C47: let a listening thread have just been started with at
most one datagram in its socket, or be waiting with an empty socket.  Then, whatever else the process does,
if its receivers do not panic, its system calls do not fail, and no datagram arrives at its socket while
another one is still there, it goes on listening, and when it has nothing left to do every receiver has been
called with everything that ever arrived at the socket, in order. -/
theorem C71_delivered (N : Net) (ls more : List NLabel) (n n' : Node)
    (h : Node.init.run N ls = some n) (h' : n.run N more = some n') (t : Thread) (ht : t ∈ n.threads)
    (hl : NoPanics t.listener)
    (hstart : (∃ q, q.length ≤ 1 ∧ t.state = t.listener.init q) ∨ Waiting t.state ∧ t.state.queue = [])
    (hsm : Smooth (stepsFor N t.socket n more))
    (hsp : SpacedFrom t.listener t.state (stepsFor N t.socket n more))
    (hdone : ∀ k u x, n'.threads[k]? = some u → u.socket = t.socket → internal x = true →
      n'.step N (.thread k x) = none) :
    .close ∉ history t.socket n'.log ∧
    ∀ r, r < t.listener.receivers.length →
      callsOf r (threadIn (history t.socket n'.log)) =
        (arrivedIn (history t.socket n'.log)).map (received t.listener.buffersize) := by
  have hrun : Node.init.run N (ls ++ more) = some n' := by
    have : ∀ (as : List NLabel) (m : Node), m.run N as = some n → m.run N (as ++ more) = some n' := by
      intro as
      induction as with
      | nil =>
        intro m hm
        simp only [Node.run, Option.some.injEq] at hm
        subst hm
        exact h'
      | cons a as ih =>
        intro m hm
        simp only [Node.run, List.cons_append] at hm ⊢
        split at hm
        · next m1 hm1 => exact ih m1 hm
        · simp at hm
    exact this ls _ h
  have hhealthy : Healthy t.state ∧ t.state.queue.length ≤ credit t.state := by
    rcases hstart with ⟨q, hq, e⟩ | ⟨⟨e1, e2⟩, e3⟩
    · rw [e]
      refine ⟨healthy_init _ q, ?_⟩
      cases q with
      | nil => simp [Listener.init]
      | cons d ds => simp [Listener.init, credit] at hq ⊢; exact hq
    · refine ⟨⟨by simp [e1, dead], by simp [credit, e1, e2], by simp [e1], by simp [e1]⟩, by simp [e3]⟩
  rcases C71 N ls more n n' h h' t ht with ⟨t', ht', e1, e2, e3, e4⟩ | ⟨-, s, c, e1, e2⟩
  · have hh := healthy_run _ hl _ _ _ hhealthy.1 e4 hsm
    have hc := spaced_credit _ hl _ _ _ hhealthy.1 hhealthy.2 e4 hsm hsp
    have hw : t'.state.phase = .polling ∧ t'.state.ready = false := by
      rcases C47_progress t.listener t'.state hh with hw | ⟨x, s', hxi, hx⟩
      · exact hw
      · exfalso
        obtain ⟨k, hk⟩ := List.getElem?_of_mem ht'
        have := hdone k t' x hk e1 hxi
        simp only [Node.step, hk, e3] at this
        cases x <;> simp [internal] at hxi <;> simp [hx] at this
    have hq : t'.state.queue = [] := by
      have : credit t'.state = 0 := by simp [credit, hw.1, hw.2]
      rw [this] at hc
      exact List.length_eq_zero_iff.mp (by omega)
    obtain ⟨handled, g1, g2, g3, g4⟩ := C66_complete N _ n' hrun t' ht' (by rw [hw.1]; rfl)
    rw [hq, List.append_nil] at g1
    rw [e1] at g1 g4
    refine ⟨?_, ?_⟩
    · have hi' := node_run N _ _ _ (Node.init_inv N) hrun
      have := life_open (hi'.fits _ (thread_mem_objs ht')).life
      rwa [e1] at this
    · intro r hr
      rw [g4 r (by rw [e3]; exact hr), g1, e3]
  · have := (healthy_run _ hl _ _ _ hhealthy.1 e1 hsm).alive
    rw [e2] at this
    simp [dead] at this

/-- The hypotheses are met: two threads; what happens to one of them, and a second socket, do not
matter to the other, which delivers the two datagrams that reach it. -/
def exampleConfig16 : Config := { Config.default with buffersize := 16 }

def exampleBusy : List NLabel :=
  [.newReceiver ⟨.v4 0 0 0 0 9⟩ (.v4 0 0 0 0 9), .addReceiver 0 ⟨fun _ _ => false, fun _ _ => []⟩,
   .newReceiver ⟨.v4 0 0 0 0 10⟩ (.v4 0 0 0 0 10), .startReceiver 1 exampleConfig16,
   .startReceiver 0 exampleConfig16]

def exampleBusyMore : List NLabel :=
  [.thread 0 .pollError, .arrive (.v4 0 0 0 0 9) ⟨[1], .v4 1 1 1 1 1⟩, .reap 0, .thread 0 .pollEvent,
   .thread 0 .recv, .newSender ⟨.v4 0 0 0 0 11⟩ (.v4 0 0 0 0 11), .thread 0 (.start 0),
   .arrive (.v4 0 0 0 0 10) ⟨[5], .v4 1 1 1 1 1⟩, .arrive (.v4 0 0 0 0 9) ⟨[2], .v4 1 1 1 1 1⟩,
   .thread 0 (.finish 0), .thread 0 .join, .thread 0 .pollEvent, .thread 0 .recv, .thread 0 (.start 0),
   .dropSender 0, .thread 0 (.finish 0), .thread 0 .join]

example : ∃ n n' t, Node.init.run plainNet exampleBusy = some n ∧ n.run plainNet exampleBusyMore = some n' ∧
    n.threads[1]? = some t ∧ stepsFor plainNet 0 n exampleBusyMore =
      [.arrive ⟨[1], .v4 1 1 1 1 1⟩, .pollEvent, .recv, .start 0, .arrive ⟨[2], .v4 1 1 1 1 1⟩, .finish 0, .join,
       .pollEvent, .recv, .start 0, .finish 0, .join] ∧
    t.socket = 0 ∧ t.state = t.listener.init [] ∧
    callsOf 0 (threadIn (history 0 n'.log)) =
      [(⟨[1]⟩, ⟨.v4 1 1 1 1 1⟩), (⟨[2]⟩, ⟨.v4 1 1 1 1 1⟩)] :=
  ⟨_, _, _, rfl, rfl, rfl, rfl, rfl, rfl, rfl⟩

/-! ## Cases for the theorems above -/

/-- `C66_bind` and `C66_bind_instance`: after `exampleBusy` the system can give port 11 but not port 9 again, and two free
ports to an instance. -/
example (n : Node) (h : Node.init.run plainNet exampleBusy = some n) :
    (∃ n', n.step plainNet (.newSender ⟨.v4 0 0 0 0 11⟩ (.v4 0 0 0 0 11)) = some n') ∧
    (¬ ∃ n', n.step plainNet (.newReceiver ⟨.v4 0 0 0 0 9⟩ (.v4 0 0 0 0 9)) = some n') ∧
    ∃ n', n.step plainNet (.newInstance Config.default (.v4 0 0 0 0 11) (.v4 0 0 0 0 8000)) = some n' := by
  have hs : n.sockets = [(1, .v4 0 0 0 0 10), (0, .v4 0 0 0 0 9)] := by
    cases h
    rfl
  refine ⟨(C66_bind plainNet _ _ h ⟨.v4 0 0 0 0 11⟩ (.v4 0 0 0 0 11) .sender).1.mpr ?_, fun hn => ?_,
    (C66_bind_instance plainNet _ _ h Config.default (.v4 0 0 0 0 11) (.v4 0 0 0 0 8000)).1.mpr ?_⟩
  · refine ⟨by unfold Gives; decide, ?_⟩
    rw [hs]
    simp only [List.mem_cons, Prod.mk.injEq, List.not_mem_nil, or_false]
    rintro s a (⟨-, rfl⟩ | ⟨-, rfl⟩) <;> decide
  · have := ((C66_bind plainNet _ _ h ⟨.v4 0 0 0 0 9⟩ (.v4 0 0 0 0 9) .receiver).1.mp hn).2 0 (.v4 0 0 0 0 9)
    simp [hs, plainNet] at this
  · refine ⟨by unfold Gives; decide, by unfold Gives; decide, ?_, by decide⟩
    rw [hs]
    simp only [List.mem_cons, Prod.mk.injEq, List.not_mem_nil, or_false]
    rintro s a (⟨-, rfl⟩ | ⟨-, rfl⟩) <;> decide

/-- `C66_start`: starting a receiver that has a callback. -/
example (n : Node) (h : Node.init.run plainNet (exampleBusy.take 2) = some n) :
    ∃ n' t, n.step plainNet (.startReceiver 0 exampleConfig16) = some n' ∧ n'.threads = [t] ∧
      t.listener.receivers.length = 1 ∧ t.listener.buffersize = 16 := by
  have hx : ∃ x, n.receivers[0]? = some x ∧ x.socket = 0 ∧ n.threads = [] ∧ (registeredIn (history 0 n.log)).length = 1 := by
    cases h
    exact ⟨_, rfl, rfl, rfl, rfl⟩
  obtain ⟨x, hx, hs, ht, hr⟩ := hx
  obtain ⟨n', t, h1, h2, -, -, -, -, -, h3, h4, -⟩ := C66_start plainNet _ _ h 0 x hx exampleConfig16
  exact ⟨n', t, h1, by rw [h2, ht]; rfl, by rw [h3, hs, hr], h4⟩

/-- `C66_start_instance`: starting the instance of `exampleLife`. -/
example (n : Node) (h : Node.init.run plainNet (exampleLife.take 5) = some n) :
    ∃ n' t, n.step plainNet (.startInstance 0) = some n' ∧ n'.threads = [t] ∧
      t.state = t.listener.init [⟨[1, 2], .v4 1 1 1 1 1⟩] := by
  have hx : ∃ x, n.instances[0]? = some x ∧ x.receiverSocket = 0 ∧ n.threads = [] ∧
      arrivedIn (history 0 n.log) = [⟨[1, 2], .v4 1 1 1 1 1⟩] := by
    cases h
    exact ⟨_, rfl, rfl, rfl, rfl⟩
  obtain ⟨x, hx, hs, ht, hr⟩ := hx
  obtain ⟨n', t, h1, h2, -, -, -, -, -, -, -, h3, -⟩ := C66_start_instance plainNet _ _ h 0 x hx
  exact ⟨n', t, h1, by rw [h2, ht]; rfl, by rw [h3, hs, hr]⟩

/-- `C66_arrive`: another datagram for port 9. -/
example (n : Node) (h : Node.init.run plainNet exampleBusy = some n) :=
  C66_arrive plainNet exampleBusy n h (.v4 0 0 0 0 9) ⟨[5], .v4 1 1 1 1 1⟩ 0 (.v4 0 0 0 0 9)
    (by cases h; exact List.mem_of_getElem? (i := 1) rfl) (by decide)

/-- `C71`, `C71_delivered`: the thread of port 9 in `exampleBusyMore`. -/
example (n n' : Node) (h : Node.init.run plainNet exampleBusy = some n) (h' : n.run plainNet exampleBusyMore = some n') :=
  C71 plainNet exampleBusy exampleBusyMore n n' h h' (n.threads[1]'(by cases h; decide)) (List.getElem_mem _)
example (n n' : Node) (h : Node.init.run plainNet exampleBusy = some n) (h' : n.run plainNet exampleBusyMore = some n') :
    ∃ t ∈ n.threads, t.socket = 0 ∧ .close ∉ history t.socket n'.log ∧ ∀ r, r < t.listener.receivers.length →
      callsOf r (threadIn (history t.socket n'.log)) = (arrivedIn (history t.socket n'.log)).map (received t.listener.buffersize) := by
  have ht : ∃ t, n.threads[1]? = some t ∧ t.socket = 0 ∧ t.state = t.listener.init [] ∧
      t.listener = ⟨[⟨fun _ _ => false, fun _ _ => []⟩], 16⟩ ∧ stepsFor plainNet 0 n exampleBusyMore =
      [.arrive ⟨[1], .v4 1 1 1 1 1⟩, .pollEvent, .recv, .start 0, .arrive ⟨[2], .v4 1 1 1 1 1⟩, .finish 0, .join,
       .pollEvent, .recv, .start 0, .finish 0, .join] := by
    cases h
    exact ⟨_, rfl, rfl, rfl, rfl, rfl⟩
  obtain ⟨t, ht, hs, hi, hlis, hst⟩ := ht
  have hn' : ∀ (k : Nat) (u : Thread) x, n'.threads[k]? = some u → u.socket = 0 → internal x = true →
      n'.step plainNet (.thread k x) = none := by
    have ht' : ∃ t', n'.threads = [t'] ∧ t'.state.phase = .polling ∧ t'.state.ready = false := by
      cases h
      cases h'
      exact ⟨_, rfl, rfl, rfl⟩
    obtain ⟨t', e1, e2, e3⟩ := ht'
    intro k u x hk _ hx
    match k with
    | 0 => cases x <;> simp [internal] at hx <;> simp [Node.step, e1, Listener.step, e2, e3]
    | k + 1 => rw [e1] at hk; cases hk
  refine ⟨t, List.mem_of_getElem? ht, hs, ?_⟩
  refine C71_delivered plainNet exampleBusy exampleBusyMore n n' h h' t (List.mem_of_getElem? ht)
    (by rw [hlis]; simp [NoPanics]) (.inl ⟨[], by decide, hi⟩) ?_ ?_ ?_
  · rw [hs, hst]; simp [Smooth, internal]
  · rw [hs, hst, hi, hlis]
    have no : ∀ {x : Label} {p : Prop}, (∀ d, x ≠ .arrive d) → ((∃ d, x = .arrive d) → p) := fun h ⟨d, e⟩ => absurd e (h d)
    refine ⟨fun _ => rfl, fun s e => ?_⟩; cases e
    refine ⟨no nofun, fun s e => ?_⟩; cases e
    refine ⟨no nofun, fun s e => ?_⟩; cases e
    refine ⟨no nofun, fun s e => ?_⟩; cases e
    refine ⟨fun _ => rfl, fun s e => ?_⟩; cases e
    refine ⟨no nofun, fun s e => ?_⟩; cases e
    refine ⟨no nofun, fun s e => ?_⟩; cases e
    refine ⟨no nofun, fun s e => ?_⟩; cases e
    refine ⟨no nofun, fun s e => ?_⟩; cases e
    refine ⟨no nofun, fun s e => ?_⟩; cases e
    refine ⟨no nofun, fun s e => ?_⟩; cases e
    exact ⟨no nofun, fun s e => trivial⟩
  · rw [hs]; exact fun k u x h1 h2 h3 => hn' k u x h1 h2 h3

end Ipv8
