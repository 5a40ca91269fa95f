import Verif.Lemmas.Node
/-!
# C66, C67: the life of a socket
-/

namespace Ipv8

open Spec

theorem history_split {s : Nat} {log pre post : List (Nat × NEv)} {e : NEv}
    (h : log = pre ++ (s, e) :: post) : history s log = history s pre ++ e :: history s post := by
  subst h
  rw [history_append]
  simp [history]

/-! ## C66 -/

/-- C66. In any history of a process, the life of every socket is one of: nothing; the life of a sender,
of a receiver that is not started, or of a started one, while it is open; one of these and then `close`,
once it is not open. -/
theorem C66 (N : Net) (ls : List NLabel) (n : Node) (h : Node.init.run N ls = some n) (s : Nat) :
    history s n.log = [] ∨
    (∃ a, (s, a) ∈ n.sockets ∧ Life a (history s n.log)) ∨
    (s ∉ n.sockets.map Prod.fst ∧ ∃ a l, history s n.log = l ++ [.close] ∧ Life a l) := by
  have hi := node_run N ls _ _ (Node.init_inv N) h
  have hfst : n.sockets.map Prod.fst = n.objs.map Prod.fst := by
    rw [n.sockets_eq, List.map_map]; rfl
  by_cases hs : s < n.next
  · by_cases hm : s ∈ n.objs.map Prod.fst
    · obtain ⟨x, hx, rfl⟩ := List.mem_map.mp hm
      refine .inr (.inl ⟨x.2.address, ?_, (hi.fits x hx).life⟩)
      rw [n.sockets_eq]
      exact List.mem_map_of_mem (f := fun x => (x.1, x.2.address)) hx
    · exact .inr (.inr ⟨hfst ▸ hm, hi.closed s hs hm⟩)
  · exact .inl (hi.fresh s (by omega))

/-- A life, perhaps closed. -/
theorem C66_life (N : Net) (ls : List NLabel) (n : Node) (h : Node.init.run N ls = some n) (s : Nat) :
    history s n.log = [] ∨ ∃ a l c, history s n.log = l ++ c ∧ Life a l ∧ (c = [] ∨ c = [.close]) := by
  rcases C66 N ls n h s with h | ⟨a, -, h⟩ | ⟨-, a, l, h1, h2⟩
  · exact .inl h
  · exact .inr ⟨a, _, [], by simp, h, .inl rfl⟩
  · exact .inr ⟨a, l, _, h1, h2, .inr rfl⟩

/-- What a receiver's history before `start` consists of. -/
theorem receiverLife_only {a : SocketAddr} {h : List NEv} (hr : ReceiverLife a h) :
    threadIn h = [] ∧ (∀ b, NEv.start b ∉ h) ∧ (∀ x, NEv.net x ∉ h) ∧
    (∀ dest d, NEv.send dest d ∉ h) ∧ NEv.close ∉ h ∧ ∀ a, NEv.bind .sender a ∉ h := by
  obtain ⟨t, rfl, ht⟩ := hr
  have key : ∀ t : List NEv, (∀ e ∈ t, (∃ d, e = .arrive d) ∨ ∃ r, e = .register r) → threadIn t = [] := by
    intro t
    induction t with
    | nil => intro _; rfl
    | cons e t ih =>
      intro ht
      have h1 := ih fun e he => ht e (by simp [he])
      rcases ht e (by simp) with ⟨d, rfl⟩ | ⟨r, rfl⟩ <;> simpa [threadIn] using h1
  have hno : ∀ e, (∀ d, e ≠ NEv.arrive d) → (∀ r, e ≠ .register r) → e ∉ t := by
    intro e h1 h2 he
    rcases ht e he with ⟨d, h⟩ | ⟨r, h⟩
    · exact h1 d h
    · exact h2 r h
  refine ⟨by simpa [threadIn] using key t ht, ?_, ?_, ?_, ?_, ?_⟩ <;> intros <;>
    simp only [List.mem_cons, not_or, reduceCtorEq, not_false_iff, true_and, NEv.bind.injEq, false_and] <;>
    exact hno _ (by simp) (by simp)

theorem senderLife_only {a : SocketAddr} {h : List NEv} (hr : SenderLife a h) :
    threadIn h = [] ∧ (∀ b, NEv.start b ∉ h) ∧ (∀ x, NEv.net x ∉ h) ∧ NEv.close ∉ h := by
  obtain ⟨t, rfl, ht⟩ := hr
  have hno : ∀ e, (∀ d, e ≠ NEv.arrive d) → (∀ dest d, e ≠ .send dest d) → e ∉ t := by
    intro e h1 h2 he
    rcases ht e he with ⟨d, h⟩ | ⟨dest, d, h, _⟩
    · exact h1 d h
    · exact h2 dest d h
  have key : ∀ t : List NEv, (∀ x, NEv.net x ∉ t) → threadIn t = [] := by
    intro t
    induction t with
    | nil => intro _; rfl
    | cons e t ih =>
      intro ht
      have h1 := ih fun x hx => ht x (by simp [hx])
      cases e with
      | net x => exact absurd (List.mem_cons_self ..) (ht x)
      | _ => simpa [threadIn] using h1
  have h3 : ∀ x, NEv.net x ∉ NEv.bind .sender a :: t := by
    intro x
    simp only [List.mem_cons, not_or, reduceCtorEq, not_false_iff, true_and]
    exact hno _ (by simp) (by simp)
  refine ⟨key _ h3, ?_, h3, ?_⟩ <;> intros <;>
    simp only [List.mem_cons, not_or, reduceCtorEq, not_false_iff, true_and] <;>
    exact hno _ (by simp) (by simp)

/-- C66. Receivers are called only by sockets that were started, the calls of a receiver come in the order
in which the datagrams arrived at this very socket since it was bound (before or after `start`), without
gaps or repetitions, each cut to the buffer size given to `start`; and a receiver that was not added to this
object before `start` is never called. -/
theorem C66_order (N : Net) (ls : List NLabel) (n : Node) (h : Node.init.run N ls = some n) (s : Nat) :
    ((∀ b, .start b ∉ history s n.log) → threadIn (history s n.log) = []) ∧
    (∀ b, .start b ∈ history s n.log →
      (∀ r, callsOf r (threadIn (history s n.log)) <+:
        (arrivedIn (history s n.log)).map (received b)) ∧
      (∀ r, (registeredIn (history s n.log)).length ≤ r →
        callsOf r (threadIn (history s n.log)) = []) ∧
      ∃ pre post, history s n.log = pre ++ .start b :: post ∧ threadIn pre = [] ∧
        registeredIn post = []) := by
  rcases C66_life N ls n h s with h0 | ⟨a, l, c, hl, hlife, hc⟩
  · rw [h0]; simp [threadIn]
  have hcl : threadIn c = [] ∧ arrivedIn c = [] ∧ registeredIn c = [] ∧ ∀ b, NEv.start b ∉ c := by
    rcases hc with rfl | rfl <;> simp [threadIn, arrivedIn, registeredIn]
  rw [hl, threadIn_append, arrivedIn_append, registeredIn_append, hcl.1, hcl.2.1, hcl.2.2.1, List.append_nil,
    List.append_nil, List.append_nil]
  rcases hlife with hs | hr | ⟨t, b, xs, st, hr, hrun, rfl⟩
  · have := senderLife_only hs
    refine ⟨fun _ => this.1, fun b hb => ?_⟩
    rcases List.mem_append.mp hb with hb | hb
    · exact absurd hb (this.2.1 b)
    · exact absurd hb (hcl.2.2.2 b)
  · have := receiverLife_only hr
    refine ⟨fun _ => this.1, fun b hb => ?_⟩
    rcases List.mem_append.mp hb with hb | hb
    · exact absurd hb (this.2.1 b)
    · exact absurd hb (hcl.2.2.2 b)
  · obtain ⟨o1, o2, o3, o4, o5⟩ := observed_facts _ _ _ _ hrun
    have ho := receiverLife_only hr
    refine ⟨fun hn => absurd (by simp) (hn b), fun b' hb' => ?_⟩
    have hbb : b' = b := by
      rcases List.mem_append.mp hb' with hb' | hb'
      · rcases List.mem_append.mp hb' with hb' | hb'
        · exact absurd hb' (ho.2.1 b')
        · rcases List.mem_cons.mp hb' with hb' | hb'
          · simpa using hb'
          · exact absurd hb' (o4 b')
      · exact absurd hb' (hcl.2.2.2 b')
    subst hbb
    have hth : threadIn (NEv.bind .receiver a :: t ++ .start b' ::
        observed ⟨registeredIn t, b'⟩ (Listener.init ⟨registeredIn t, b'⟩ (arrivedIn t)) xs) = st.trace := by
      rw [threadIn_append, ho.1, o1]
      simp [threadIn, Listener.init]
    have har : arrivedIn (NEv.bind .receiver a :: t ++ .start b' ::
        observed ⟨registeredIn t, b'⟩ (Listener.init ⟨registeredIn t, b'⟩ (arrivedIn t)) xs) =
        arrivedIn t ++ arrivals xs := by
      rw [arrivedIn_append]
      simp [arrivedIn, o2]
    have hre : registeredIn (NEv.bind .receiver a :: t ++ .start b' ::
        observed ⟨registeredIn t, b'⟩ (Listener.init ⟨registeredIn t, b'⟩ (arrivedIn t)) xs) =
        registeredIn t := by
      rw [registeredIn_append]
      simp [registeredIn, o3]
    rw [hth, har, hre]
    obtain ⟨handled, c1, c2, -⟩ := C43 _ _ _ _ hrun
    obtain ⟨c3, c4⟩ := C43_always _ _ _ _ hrun
    refine ⟨?_, c4, ?_⟩
    · intro r
      have hp : takenIn st.trace <+: (arrivedIn t ++ arrivals xs).map (received b') := by
        rw [c1, c2, List.map_append]
        exact List.prefix_append _ _
      by_cases hr : r < (registeredIn t).length
      · rcases c3 r hr with e | ⟨cur, e⟩
        · rw [e]; exact hp
        · exact (List.prefix_append _ [cur]).trans (e ▸ hp)
      · rw [c4 r (by simpa using hr)]
        exact List.nil_prefix
    · refine ⟨NEv.bind .receiver a :: t, observed ⟨registeredIn t, b'⟩
        (Listener.init ⟨registeredIn t, b'⟩ (arrivedIn t)) xs ++ c, by simp, ho.1, ?_⟩
      rw [registeredIn_append, o3, hcl.2.2.1]
      rfl

/-- C66. When a receiver is called, the datagram it is called with has arrived before, at this very socket
and after the socket was bound; the socket belongs to a `NetworkReceiver` that was started before and not
closed; and the receiver had been added to it before that. -/
theorem C66_call (N : Net) (ls : List NLabel) (n : Node) (h : Node.init.run N ls = some n) (s r : Nat)
    (p : Packet) (a : Address) (pre post : List (Nat × NEv))
    (hl : n.log = pre ++ (s, .net (.call r p a)) :: post) :
    ∃ address before after b d, history s pre = .bind .receiver address :: before ++ .start b :: after ∧
      r < (registeredIn before).length ∧ registeredIn after = [] ∧ .close ∉ history s pre ∧
      d ∈ arrivedIn (before ++ after) ∧ received b d = (p, a) := by
  have hh := history_split hl
  rcases C66_life N ls n h s with h0 | ⟨address, l, c, hlc, hlife, hc⟩
  · rw [h0] at hh; simp at hh
  have hmem : NEv.net (.call r p a) ∈ l := by
    have : NEv.net (.call r p a) ∈ l ++ c := by rw [← hlc, hh]; simp
    rcases List.mem_append.mp this with h | h
    · exact h
    · rcases hc with rfl | rfl <;> simp at h
  rcases hlife with hs | hr | ⟨t, b, xs, st, hr, hrun, rfl⟩
  · exact absurd hmem ((senderLife_only hs).2.2.1 _)
  · exact absurd hmem ((receiverLife_only hr).2.2.1 _)
  have ho := receiverLife_only hr
  -- the call is in the part after `start`
  rw [hlc] at hh
  obtain ⟨A, hA, B, hB⟩ : ∃ A, history s pre = NEv.bind .receiver address :: t ++ .start b :: A ∧
      ∃ B, observed ⟨registeredIn t, b⟩ (Listener.init ⟨registeredIn t, b⟩ (arrivedIn t)) xs =
        A ++ .net (.call r p a) :: B := by
    have hcnet : ∀ x, NEv.net x ∉ c := by rcases hc with rfl | rfl <;> simp
    generalize observed ⟨registeredIn t, b⟩ (Listener.init ⟨registeredIn t, b⟩ (arrivedIn t)) xs = o at hh
    generalize hH : history s pre = H at hh
    generalize hP : history s post = P at hh
    -- the first part has no thread events
    have hfirst : ∀ x, NEv.net x ∉ NEv.bind .receiver address :: t ++ [.start b] := by
      intro x hx
      rcases List.mem_append.mp hx with hx | hx
      · exact ho.2.2.1 x hx
      · simp at hx
    have e1 : (NEv.bind .receiver address :: t ++ [.start b]) ++ (o ++ c) = H ++ NEv.net (.call r p a) :: P := by
      rw [← hh]; simp
    rcases List.append_eq_append_iff.mp e1 with ⟨A, e2, e3⟩ | ⟨A, e2, e3⟩
    · rcases List.append_eq_append_iff.mp e3 with ⟨Q, e4, e5⟩ | ⟨Q, e4, e5⟩
      · exact absurd (by rw [e5]; simp) (hcnet (.call r p a))
      · cases Q with
        | nil =>
          simp only [List.nil_append] at e5
          exact absurd (by rw [← e5]; simp) (hcnet (.call r p a))
        | cons q Q =>
          simp only [List.cons_append, List.cons.injEq] at e5
          refine ⟨A, by rw [e2]; simp, Q, by rw [e4, ← e5.1]⟩
    · cases A with
      | nil =>
        simp only [List.nil_append] at e3
        cases o with
        | nil => exact absurd (by rw [List.nil_append] at e3; rw [← e3]; simp) (hcnet (.call r p a))
        | cons q Q =>
          simp only [List.cons_append, List.cons.injEq] at e3
          simp only [List.append_nil] at e2
          exact ⟨[], by rw [← e2], Q, by rw [e3.1]; rfl⟩
      | cons q Q =>
        simp only [List.cons_append, List.cons.injEq] at e3
        exact absurd (by rw [e2, ← e3.1]; simp) (hfirst (.call r p a))
  obtain ⟨xs1, s1, hrun1, hob1⟩ := observed_split _ _ _ _ _ A B hrun hB
  obtain ⟨o1, o2, o3, o4, o5⟩ := observed_facts _ _ _ _ hrun1
  rw [hob1] at o1 o2 o3 o4 o5
  simp only [threadIn_append, arrivedIn_append, registeredIn_append, threadIn, arrivedIn, registeredIn,
    List.append_nil, Listener.init, List.nil_append] at o1 o2 o3
  obtain ⟨handled, c1, c2, -⟩ := C43 _ _ _ _ hrun1
  obtain ⟨c3, c4⟩ := C43_always _ _ _ _ hrun1
  obtain ⟨c5, -⟩ := C44_calls _ _ _ _ hrun1 (threadIn A) [] r
  obtain ⟨c6, -⟩ := c5 p a o1
  have hr' : r < (registeredIn t).length := by
    rcases Nat.lt_or_ge r (registeredIn t).length with h | h
    · exact h
    · have := c4 r h
      rw [o1] at this
      have happ : ∀ u, callsOf r (u ++ [Ev.call r p a]) ≠ [] := by
        intro u
        induction u with
        | nil => simp [callsOf]
        | cons e u ih =>
          cases e with
          | call r' p' a' =>
            simp only [List.cons_append, callsOf]
            split
            · simp
            · exact ih
          | taken => simp only [List.cons_append, callsOf]; exact ih
          | ret => simp only [List.cons_append, callsOf]; exact ih
      exact absurd this (happ _)
  have hd : ∃ d ∈ handled, received b d = (p, a) := by
    have hm : (p, a) ∈ takenIn (threadIn A) := List.mem_of_getLast? c6
    have : (p, a) ∈ takenIn s1.trace := by
      rw [o1]
      have happ : ∀ u v x, x ∈ takenIn u → x ∈ takenIn (u ++ v) := by
        intro u v x
        induction u with
        | nil => simp [takenIn]
        | cons e u ih =>
          cases e with
          | taken p' a' =>
            simp only [List.cons_append, takenIn, List.mem_cons]
            rintro (h | h)
            · exact .inl h
            · exact .inr (ih h)
          | call => simp only [List.cons_append, takenIn]; exact ih
          | ret => simp only [List.cons_append, takenIn]; exact ih
      exact happ _ _ _ hm
    rw [c2] at this
    obtain ⟨d, hd, he⟩ := List.mem_map.mp this
    exact ⟨d, hd, he⟩
  obtain ⟨d, hd, he⟩ := hd
  refine ⟨address, t, A, b, d, hA, hr', o3, ?_, ?_, he⟩
  · rw [hA]
    intro hm
    rcases List.mem_append.mp hm with hm | hm
    · exact ho.2.2.2.2.1 hm
    · rcases List.mem_cons.mp hm with hm | hm
      · simp at hm
      · rcases o5 _ (List.mem_append_left _ hm) with ⟨_, h⟩ | ⟨_, h⟩ <;> simp at h
  · rw [arrivedIn_append, o2, c1]
    exact List.mem_append_left _ hd

/-- C66. Nothing is lost between bind and `start`, or later: whenever a listening thread is between two
datagrams, all its receivers were called with the same datagrams, and these together with what is queued are
all that arrived at its socket since it was bound, in order. -/
theorem C66_complete (N : Net) (ls : List NLabel) (n : Node) (h : Node.init.run N ls = some n)
    (t : Thread) (ht : t ∈ n.threads) (hidle : idle t.state.phase = true) :
    ∃ handled, arrivedIn (history t.socket n.log) = handled ++ t.state.queue ∧
      t.listener.receivers = registeredIn (history t.socket n.log) ∧
      .start t.listener.buffersize ∈ history t.socket n.log ∧
      ∀ r, r < t.listener.receivers.length →
        callsOf r (threadIn (history t.socket n.log)) = handled.map (received t.listener.buffersize) := by
  have hi := node_run N ls _ _ (Node.init_inv N) h
  have hm : (t.socket, Obj.thread t.address t.listener t.state) ∈ n.objs := by
    simp only [objsOf, List.mem_append, List.mem_map]
    exact .inr ⟨t, ht, rfl⟩
  obtain ⟨u, b, xs, hr, hl, hrun, hh⟩ := hi.fits _ hm
  simp only at hh
  obtain ⟨o1, o2, o3, o4, o5⟩ := observed_facts _ _ _ _ hrun
  obtain ⟨handled, c1, c2, c3⟩ := C43 _ _ _ _ hrun
  have ho := receiverLife_only hr
  refine ⟨handled, ?_, ?_, ?_, ?_⟩
  · rw [hh, arrivedIn_append]
    simp only [arrivedIn, o2]
    exact c1
  · rw [hh, registeredIn_append]
    simp only [registeredIn, o3, List.append_nil]
    rw [hl]
  · rw [hh, hl]
    simp
  · intro r hr'
    rw [hh, threadIn_append, ho.1]
    simp only [threadIn, List.nil_append]
    have := c3 hidle r hr'
    rw [o1] at this
    simpa [Listener.init] using this

/-- C66. Before `start`, what arrives waits in the queue, in order. -/
theorem C66_waiting (N : Net) (ls : List NLabel) (n : Node) (h : Node.init.run N ls = some n) :
    (∀ x ∈ n.receivers, arrivedIn (history x.socket n.log) = x.queue ∧
      registeredIn (history x.socket n.log) = x.net.receivers) ∧
    (∀ x ∈ n.instances, arrivedIn (history x.receiverSocket n.log) = x.queue ∧
      registeredIn (history x.receiverSocket n.log) = x.ipv8.networkReceiver.receivers) := by
  have hi := node_run N ls _ _ (Node.init_inv N) h
  constructor
  · intro x hx
    have hm : (x.socket, Obj.receiver x.address x.queue x.net) ∈ n.objs := by
      simp only [objsOf, List.mem_append, List.mem_map]
      exact .inl (.inl (.inr ⟨x, hx, rfl⟩))
    exact (hi.fits _ hm).2
  · intro x hx
    have hm : (x.receiverSocket, Obj.receiver x.receiverAddress x.queue x.ipv8.networkReceiver) ∈ n.objs := by
      simp only [objsOf, List.mem_append, List.mem_flatMap]
      exact .inl (.inr ⟨x, hx, by simp⟩)
    exact (hi.fits _ hm).2

/-- Two open sockets that a datagram reaches are the same. -/
theorem reaches_unique {N : Net} {n : Node} (hi : n.Inv N) {x y : Nat × Obj} (hx : x ∈ n.objs)
    (hy : y ∈ n.objs) {dest : SocketAddr} (h1 : N.reaches x.2.address dest = true)
    (h2 : N.reaches y.2.address dest = true) : x = y := by
  have hc := N.excl _ _ _ h1 h2
  have hap := hi.apart
  by_cases he : x = y
  · exact he
  · exfalso
    have : ∀ (l : List (Nat × Obj)), l.Pairwise (fun x y => N.conflict x.2.address y.2.address = false) →
        x ∈ l → y ∈ l → False := by
      intro l
      induction l with
      | nil => intro _ h; simp at h
      | cons z l ih =>
        intro hp hx hy
        obtain ⟨p1, p2⟩ := List.pairwise_cons.mp hp
        rcases List.mem_cons.mp hx with h | h <;> rcases List.mem_cons.mp hy with h' | h'
        · exact he (h.trans h'.symm)
        · have := p1 y h'
          rw [← h, hc] at this
          simp at this
        · have := p1 x h
          rw [← h', N.symm, hc] at this
          simp at this
        · exact ih p2 h h'
    exact this _ hap hx hy

/-- C66. A datagram reaches at most one socket. -/
theorem C66_one_socket (N : Net) (ls : List NLabel) (n : Node) (h : Node.init.run N ls = some n)
    (dest : SocketAddr) (s t : Nat) (a b : SocketAddr) (hs : (s, a) ∈ n.sockets) (ht : (t, b) ∈ n.sockets)
    (h1 : N.reaches a dest = true) (h2 : N.reaches b dest = true) : s = t ∧ a = b := by
  have hi := node_run N ls _ _ (Node.init_inv N) h
  rw [n.sockets_eq] at hs ht
  obtain ⟨x, hx, ex⟩ := List.mem_map.mp hs
  obtain ⟨y, hy, ey⟩ := List.mem_map.mp ht
  simp only [Prod.mk.injEq] at ex ey
  have := reaches_unique hi hx hy (ex.2 ▸ h1) (ey.2 ▸ h2)
  subst this
  exact ⟨ex.1.symm.trans ey.1, ex.2.symm.trans ey.2⟩

/-- A socket that is not open and was used before stays as it is. -/
theorem closed_step (N : Net) (n n' : Node) (x : NLabel) (hi : n.Inv N) (hs : n.step N x = some n')
    (s : Nat) (hlt : s < n.next) (hn : s ∉ n.objs.map Prod.fst) :
    history s n'.log = history s n.log ∧ s < n'.next ∧ s ∉ n'.objs.map Prod.fst := by
  have hi' := node_step N n n' x hi hs
  obtain ⟨a, l, hl, hlife⟩ := hi.closed s hlt hn
  -- the log only grows, and the socket's history keeps its `close`
  have hgrow : n.log <+: n'.log ∧ n.next ≤ n'.next := by
    cases x <;> simp only [Node.step] at hs <;> (repeat' split at hs) <;>
      simp only [Option.some.injEq, reduceCtorEq] at hs <;> subst hs <;> simp [Node.arrive]
  obtain ⟨ext, hext⟩ := hgrow.1
  have hlt' : s < n'.next := by omega
  have hh : history s n'.log = l ++ [.close] ++ history s ext := by
    rw [← hext, history_append, hl]
  have hnoclose : ∀ a l, Life a l → NEv.close ∉ l := by
    intro a l hl
    rcases hl with h | h | ⟨t, b, xs, st, hr, hrun, rfl⟩
    · exact (senderLife_only h).2.2.2
    · exact (receiverLife_only h).2.2.2.2.1
    · intro hm
      obtain ⟨o1, o2, o3, o4, o5⟩ := observed_facts _ _ _ _ hrun
      rcases List.mem_append.mp hm with hm | hm
      · exact (receiverLife_only hr).2.2.2.2.1 hm
      · rcases List.mem_cons.mp hm with hm | hm
        · simp at hm
        · rcases o5 _ hm with ⟨_, h⟩ | ⟨_, h⟩ <;> simp at h
  by_cases hm : s ∈ n'.objs.map Prod.fst
  · obtain ⟨y, hy, rfl⟩ := List.mem_map.mp hm
    have := (hi'.fits y hy).life
    rw [hh] at this
    exact absurd (by simp) (hnoclose _ _ this)
  · refine ⟨?_, hlt', hm⟩
    obtain ⟨a', l', hl', hlife'⟩ := hi'.closed s hlt' hm
    rw [hh] at hl'
    cases he : history s ext with
    | nil => rw [hh, he, hl]; simp
    | cons e es =>
      exfalso
      rw [he] at hl'
      have hne : (e :: es) ≠ [] := by simp
      have hsplit : e :: es = (e :: es).dropLast ++ [(e :: es).getLast hne] :=
        (List.dropLast_concat_getLast hne).symm
      rw [hsplit, ← List.append_assoc] at hl'
      have hl'' := (List.append_inj' hl' rfl).1
      exact hnoclose _ _ hlife' (by rw [← hl'']; simp)

/-- C66. Closing is for ever: nothing happens any more to a socket that was closed, whatever the process
does. -/
theorem C66_closed (N : Net) (ls more : List NLabel) (n n' : Node) (h : Node.init.run N ls = some n)
    (h' : n.run N more = some n') (s : Nat) (hc : .close ∈ history s n.log) :
    history s n'.log = history s n.log := by
  have hi := node_run N ls _ _ (Node.init_inv N) h
  have hs : s < n.next ∧ s ∉ n.objs.map Prod.fst := by
    constructor
    · rcases Nat.lt_or_ge s n.next with h | h
      · exact h
      · rw [hi.fresh s h] at hc; simp at hc
    · intro hm
      obtain ⟨y, hy, rfl⟩ := List.mem_map.mp hm
      have := (hi.fits y hy).life
      rcases this with h | h | ⟨t, b, xs, st, hr, hrun, hh⟩
      · exact (senderLife_only h).2.2.2 hc
      · exact (receiverLife_only h).2.2.2.2.1 hc
      · rw [hh] at hc
        obtain ⟨o1, o2, o3, o4, o5⟩ := observed_facts _ _ _ _ hrun
        rcases List.mem_append.mp hc with hm | hm
        · exact (receiverLife_only hr).2.2.2.2.1 hm
        · rcases List.mem_cons.mp hm with hm | hm
          · simp at hm
          · rcases o5 _ hm with ⟨_, h⟩ | ⟨_, h⟩ <;> simp at h
  clear h hc
  induction more generalizing n with
  | nil => simp only [Node.run, Option.some.injEq] at h'; rw [h']
  | cons x more ih =>
    simp only [Node.run] at h'
    split at h'
    · next n1 hx =>
      obtain ⟨g1, g2, g3⟩ := closed_step N n n1 x hi hx s hs.1 hs.2
      rw [← g1]
      exact ih n1 h' (node_step N n n1 x hi hx) ⟨g2, g3⟩
    · simp at h'

/-! ## C67 -/

/-- C67. Only an open sending socket sends, and every datagram it sends has its own address as source. -/
theorem C67_source (N : Net) (ls : List NLabel) (n : Node) (h : Node.init.run N ls = some n) (s : Nat)
    (dest : SocketAddr) (d : Datagram) (pre post : List (Nat × NEv))
    (hl : n.log = pre ++ (s, .send dest d) :: post) :
    ∃ rest, history s pre = .bind .sender d.source :: rest ∧ .close ∉ history s pre := by
  have hh := history_split hl
  rcases C66_life N ls n h s with h0 | ⟨a, l, c, hlc, hlife, hc⟩
  · rw [h0] at hh; simp at hh
  have hmem : NEv.send dest d ∈ l := by
    have : NEv.send dest d ∈ l ++ c := by rw [← hlc, hh]; simp
    rcases List.mem_append.mp this with h | h
    · exact h
    · rcases hc with rfl | rfl <;> simp at h
  rcases hlife with hs | hr | ⟨t, b, xs, st, hr, hrun, rfl⟩
  · have ho := senderLife_only hs
    obtain ⟨t, rfl, ht⟩ := hs
    have hsrc : d.source = a := by
      rcases List.mem_cons.mp hmem with h | h
      · simp at h
      · rcases ht _ h with ⟨_, h⟩ | ⟨_, _, h, hs⟩
        · simp at h
        · simp only [NEv.send.injEq] at h
          rw [h.2]; exact hs
    rw [hlc] at hh
    cases hp : history s pre with
    | nil => rw [hp] at hh; simp at hh
    | cons e es =>
      rw [hp] at hh
      simp only [List.cons_append, List.cons.injEq] at hh
      refine ⟨es, by rw [← hh.1, hsrc], ?_⟩
      intro hcl
      -- a close before the last event
      have hpre : (e :: es) <+: NEv.bind .sender a :: t := by
        have e1 : (NEv.bind .sender a :: t) ++ c = (e :: es) ++ NEv.send dest d :: history s post := by
          rw [← hh.1]
          simp [hh.2]
        rcases List.append_eq_append_iff.mp e1 with ⟨A, e2, e3⟩ | ⟨A, e2, e3⟩
        · exfalso
          have : NEv.send dest d ∈ c := by rw [e3]; simp
          rcases hc with rfl | rfl <;> simp at this
        · exact ⟨A, e2.symm⟩
      exact ho.2.2.2 (hpre.subset hcl)
  · exact absurd hmem ((receiverLife_only hr).2.2.2.1 _ _)
  · exfalso
    obtain ⟨o1, o2, o3, o4, o5⟩ := observed_facts _ _ _ _ hrun
    rcases List.mem_append.mp hmem with hm | hm
    · exact (receiverLife_only hr).2.2.2.1 _ _ hm
    · rcases List.mem_cons.mp hm with hm | hm
      · simp at hm
      · rcases o5 _ hm with ⟨_, h⟩ | ⟨_, h⟩ <;> simp at h

/-- C67. No receiver is ever called because of a sending socket: replies to the source address of a
packet are read by nobody. -/
theorem C67_never_read (N : Net) (ls : List NLabel) (n : Node) (h : Node.init.run N ls = some n) (s : Nat)
    (dest : SocketAddr) (d : Datagram) (hsent : .send dest d ∈ history s n.log) :
    threadIn (history s n.log) = [] := by
  rcases C66_life N ls n h s with h0 | ⟨a, l, c, hlc, hlife, hc⟩
  · rw [h0]; rfl
  have hmem : NEv.send dest d ∈ l := by
    rw [hlc] at hsent
    rcases List.mem_append.mp hsent with h | h
    · exact h
    · rcases hc with rfl | rfl <;> simp at h
  rcases hlife with hs | hr | ⟨t, b, xs, st, hr, hrun, rfl⟩
  · rw [hlc, threadIn_append, (senderLife_only hs).1]
    rcases hc with rfl | rfl <;> rfl
  · exact absurd hmem ((receiverLife_only hr).2.2.2.1 _ _)
  · exfalso
    obtain ⟨o1, o2, o3, o4, o5⟩ := observed_facts _ _ _ _ hrun
    rcases List.mem_append.mp hmem with hm | hm
    · exact (receiverLife_only hr).2.2.2.1 _ _ hm
    · rcases List.mem_cons.mp hm with hm | hm
      · simp at hm
      · rcases o5 _ hm with ⟨_, h⟩ | ⟨_, h⟩ <;> simp at h

/-- The open sending sockets of a process. -/
def Node.openSenders (n : Node) : List OpenSender := n.senders ++ n.instances.map (fun x => x.sender)

theorem map_same {α : Type} {f : α → α} {l : List α} (h : ∀ x ∈ l, f x = x) : l.map f = l := by
  induction l with
  | nil => rfl
  | cons a l ih => simp [h a (by simp), ih fun x hx => h x (by simp [hx])]

/-- C67. While the sending socket is open, a datagram sent to its address has no effect at all: no queue,
no thread, no object of the process is any different. -/
theorem C67_reply (N : Net) (ls : List NLabel) (n : Node) (h : Node.init.run N ls = some n)
    (x : OpenSender) (hx : x ∈ n.openSenders) (dest : SocketAddr) (d : Datagram)
    (hr : N.reaches x.address dest = true) :
    n.step N (.arrive dest d) = some { n with log := n.log ++ [(x.socket, .arrive d)] } := by
  have hi := node_run N ls _ _ (Node.init_inv N) h
  have hm : (x.socket, Obj.sender x.address) ∈ n.objs := by
    simp only [objsOf, List.mem_append, List.mem_map, List.mem_flatMap]
    simp only [Node.openSenders, List.mem_append, List.mem_map] at hx
    rcases hx with hx | ⟨y, hy, rfl⟩
    · exact .inl (.inl (.inl ⟨x, hx, rfl⟩))
    · exact .inl (.inr ⟨y, hy, by simp⟩)
  have huniq : ∀ y ∈ n.objs, N.reaches y.2.address dest = true → y = (x.socket, Obj.sender x.address) :=
    fun y hy hry => reaches_unique hi hy hm hry hr
  have hfilter : n.sockets.filter (fun x => N.reaches x.2 dest) = [(x.socket, x.address)] := by
    rw [n.sockets_eq, List.filter_map]
    have : n.objs.filter (fun y => N.reaches y.2.address dest) = [(x.socket, Obj.sender x.address)] := by
      obtain ⟨p, q, hpq⟩ := List.append_of_mem hm
      rw [hpq] at huniq
      have hnd := hi.nodup
      rw [hpq] at hnd
      simp only [List.map_append, List.map_cons, List.nodup_append, List.nodup_cons] at hnd
      have hp : p.filter (fun y => N.reaches y.2.address dest) = [] := by
        rw [List.filter_eq_nil_iff]
        intro y hy hry
        have := huniq y (by simp [hy]) hry
        subst this
        exact hnd.2.2 _ (List.mem_map_of_mem hy) _ (List.mem_cons_self ..) rfl
      have hq : q.filter (fun y => N.reaches y.2.address dest) = [] := by
        rw [List.filter_eq_nil_iff]
        intro y hy hry
        have := huniq y (by simp [hy]) hry
        subst this
        exact hnd.2.1.1 (List.mem_map_of_mem hy)
      rw [hpq, List.filter_append, hp, List.filter_cons_of_pos (by simpa [Obj.address] using hr), hq]
      rfl
    simp only [Function.comp_def]
    rw [this]
    rfl
  have hnotR : ∀ y ∈ n.receivers, N.reaches y.address dest = false := by
    intro y hy
    cases hry : N.reaches y.address dest with
    | false => rfl
    | true =>
      have := huniq (y.socket, .receiver y.address y.queue y.net) (by
        simp only [objsOf, List.mem_append, List.mem_map]
        exact .inl (.inl (.inr ⟨y, hy, rfl⟩))) hry
      simp at this
  have hnotI : ∀ y ∈ n.instances, N.reaches y.receiverAddress dest = false := by
    intro y hy
    cases hry : N.reaches y.receiverAddress dest with
    | false => rfl
    | true =>
      have := huniq (y.receiverSocket, .receiver y.receiverAddress y.queue y.ipv8.networkReceiver) (by
        simp only [objsOf, List.mem_append, List.mem_flatMap]
        exact .inl (.inr ⟨y, hy, by simp⟩)) hry
      simp at this
  have hnotT : ∀ y ∈ n.threads, N.reaches y.address dest = false := by
    intro y hy
    cases hry : N.reaches y.address dest with
    | false => rfl
    | true =>
      have := huniq (y.socket, .thread y.address y.listener y.state) (by
        simp only [objsOf, List.mem_append, List.mem_map]
        exact .inr ⟨y, hy, rfl⟩) hry
      simp at this
  simp only [Node.step, Node.arrive, hfilter, List.map_cons, List.map_nil]
  have hR : n.receivers.map (fun x => if N.reaches x.address dest = true then
      { x with queue := x.queue ++ [d] } else x) = n.receivers := by
    apply map_same
    intro y hy
    simp [hnotR y hy]
  have hI : n.instances.map (fun x => if N.reaches x.receiverAddress dest = true then
      { x with queue := x.queue ++ [d] } else x) = n.instances := by
    apply map_same
    intro y hy
    simp [hnotI y hy]
  have hT : n.threads.map (fun x => if N.reaches x.address dest = true then
      { x with state := (x.listener.step x.state (.arrive d)).getD x.state } else x) = n.threads := by
    apply map_same
    intro y hy
    simp [hnotT y hy]
  rw [hR, hI, hT]

/-- C67. A datagram that reaches no open socket has no effect whatever. -/
theorem C67_unreached (N : Net) (n : Node) (dest : SocketAddr) (d : Datagram)
    (hr : ∀ x ∈ n.sockets, N.reaches x.2 dest = false) : n.step N (.arrive dest d) = some n := by
  have hf : n.sockets.filter (fun x => N.reaches x.2 dest) = [] := by
    rw [List.filter_eq_nil_iff]
    intro x hx
    simp [hr x hx]
  have hnotR : ∀ y ∈ n.receivers, N.reaches y.address dest = false := fun y hy =>
    hr (y.socket, y.address) (by
      simp only [Node.sockets, List.mem_append, List.mem_map]; exact .inl (.inl (.inr ⟨y, hy, rfl⟩)))
  have hnotI : ∀ y ∈ n.instances, N.reaches y.receiverAddress dest = false := fun y hy =>
    hr (y.receiverSocket, y.receiverAddress) (by
      simp only [Node.sockets, List.mem_append, List.mem_flatMap]; exact .inl (.inr ⟨y, hy, by simp⟩))
  have hnotT : ∀ y ∈ n.threads, N.reaches y.address dest = false := fun y hy =>
    hr (y.socket, y.address) (by
      simp only [Node.sockets, List.mem_append, List.mem_map]; exact .inr ⟨y, hy, rfl⟩)
  simp only [Node.step, Node.arrive, hf, List.map_nil, List.append_nil]
  congr 1
  rcases n with ⟨next, S, R, I, T, log⟩
  simp only at hnotR hnotI hnotT
  simp only [Node.mk.injEq, true_and, and_true]
  refine ⟨?_, ?_, ?_⟩
  · apply map_same
    intro y hy
    simp [hnotR y hy]
  · apply map_same
    intro y hy
    simp [hnotI y hy]
  · apply map_same
    intro y hy
    simp [hnotT y hy]

/-- C67. `IPv8::start` ends sending for good: after it, nothing is ever sent through that instance's
sending socket. -/
theorem C67_start_ends_sending (N : Net) (ls more : List NLabel) (n n1 n2 : Node) (i : Nat)
    (x : OpenInstance) (h : Node.init.run N ls = some n) (hx : n.instances[i]? = some x)
    (h1 : n.step N (.startInstance i) = some n1) (h2 : n1.run N more = some n2) :
    history x.sender.socket n2.log = history x.sender.socket n1.log ∧
    history x.sender.socket n1.log = history x.sender.socket n.log ++ [.close] := by
  have hrun : Node.init.run N (ls ++ [.startInstance i]) = some n1 := by
    have : ∀ (as : List NLabel) (m : Node), m.run N as = some n →
        m.run N (as ++ [.startInstance i]) = some n1 := by
      intro as
      induction as with
      | nil =>
        intro m hm
        simp only [Node.run, Option.some.injEq] at hm
        subst hm
        simp [Node.run, h1]
      | cons a as ih =>
        intro m hm
        simp only [Node.run, List.cons_append] at hm ⊢
        split at hm
        · next m1 hm1 => exact ih m1 hm
        · simp at hm
    exact this ls _ h
  have hi := node_run N ls _ _ (Node.init_inv N) h
  have hne : x.receiverSocket ≠ x.sender.socket := by
    obtain ⟨p, q, hpq, -, -, -⟩ := split_at hx
    have hnd := hi.nodup
    have := ((objs_instance n.senders n.receivers p q n.threads x).map Prod.fst).nodup_iff.mp
      (by rw [← hpq]; exact hnd)
    simp only [List.map_cons, List.nodup_cons, List.mem_cons, not_or] at this
    exact this.1.1
  have hlog : n1.log = n.log ++ [(x.receiverSocket, .start x.ipv8.start.buffersize),
      (x.sender.socket, .close)] := by
    simp only [Node.step, hx, Option.some.injEq] at h1
    rw [← h1]
  have hh : history x.sender.socket n1.log = history x.sender.socket n.log ++ [.close] := by
    rw [hlog, history_append]
    simp [history, hne]
  exact ⟨C66_closed N _ more n1 n2 hrun h2 _ (by rw [hh]; simp), hh⟩

/-! ## The hypotheses are met -/

/-- The simplest operating system: only equal addresses conflict, and a datagram reaches the address it is
sent to. -/
def plainNet : Net where
  conflict a b := decide (a = b)
  self a := by simp
  symm a b := by simp [eq_comm]
  reaches a b := decide (a = b)
  excl a b dest h1 h2 := by
    simp only [decide_eq_true_eq] at *
    exact h1.trans h2.symm

/-- An instance is created on two ports; a datagram comes in before anything is set up; a receiver is
added; a packet is sent; a reply to its source address comes in; the instance is started; its receiver is
called with the first datagram only. -/
def exampleLife : List NLabel :=
  [.newInstance { Config.default with buffersize := 16 } (.v4 0 0 0 0 9) (.v4 0 0 0 0 8000),
   .arrive (.v4 0 0 0 0 9) ⟨[1, 2], .v4 1 1 1 1 1⟩,
   .setup 0 (.addReceiver ⟨fun _ _ => false, fun _ _ => []⟩),
   .sendInstance 0 ⟨.v4 1 1 1 1 1⟩ ⟨[7]⟩,
   .arrive (.v4 0 0 0 0 8000) ⟨[3], .v4 1 1 1 1 1⟩,
   .startInstance 0,
   .thread 0 .pollEvent, .thread 0 .recv, .thread 0 (.start 0), .thread 0 (.finish 0), .thread 0 .join,
   .thread 0 .pollError, .reap 0]

example : ∃ n, Node.init.run plainNet exampleLife = some n ∧
    threadIn (history 0 n.log) =
      [.taken ⟨[1, 2]⟩ ⟨.v4 1 1 1 1 1⟩, .call 0 ⟨[1, 2]⟩ ⟨.v4 1 1 1 1 1⟩, .ret 0] ∧
    history 1 n.log = [.bind .sender (.v4 0 0 0 0 8000), .send (.v4 1 1 1 1 1) ⟨[7], .v4 0 0 0 0 8000⟩,
      .arrive ⟨[3], .v4 1 1 1 1 1⟩, .close] :=
  ⟨_, rfl, rfl, rfl⟩

/-- Taking an instance apart keeps the sender usable while the receiver listens, and an instance can be put
together again. -/
example : ∃ n, Node.init.run plainNet
    [.newInstance { Config.default with buffersize := 16 } (.v4 0 0 0 0 9) (.v4 0 0 0 0 8000), .takeApart 0,
     .newReceiver ⟨.v4 0 0 0 0 0⟩ (.v4 0 0 0 0 77), .startReceiver 0 Config.default,
     .send 0 ⟨.v4 1 1 1 1 1⟩ ⟨[7]⟩, .assemble Config.default CommunityRegistry.default 0 0,
     .sendInstance 0 ⟨.v4 1 1 1 1 1⟩ ⟨[8]⟩, .startInstance 0] = some n ∧
    n.threads.map (fun t => t.address) = [.v4 0 0 0 0 9, .v4 0 0 0 0 77] ∧ n.openSenders.length = 0 :=
  ⟨_, rfl, rfl, rfl⟩

/-! ## Cases for the theorems above -/

/-- `C66_order`: the callback of `exampleLife` is called with a prefix of what arrived. -/
example (n : Node) (h : Node.init.run plainNet exampleLife = some n) :
    callsOf 0 (threadIn (history 0 n.log)) <+: (arrivedIn (history 0 n.log)).map (received 16) := by
  have hs : .start 16 ∈ history 0 n.log := by
    cases h
    exact List.mem_of_getElem? (i := 3) rfl
  exact ((C66_order plainNet _ _ h 0).2 16 hs).1 0

/-- `C67_never_read`: what came back to the sending socket of `exampleLife`. -/
example (n : Node) (h : Node.init.run plainNet exampleLife = some n) : threadIn (history 1 n.log) = [] := by
  have hs : .send (.v4 1 1 1 1 1) ⟨[7], .v4 0 0 0 0 8000⟩ ∈ history 1 n.log := by
    cases h
    exact List.mem_of_getElem? (i := 1) rfl
  exact C67_never_read plainNet _ _ h 1 _ _ hs

/-- `C67_reply` and `C67_unreached`: a reply to an open sender, and a datagram to nobody. -/
example (n : Node) (h : Node.init.run plainNet [.newSender ⟨.v4 0 0 0 0 11⟩ (.v4 0 0 0 0 11)] = some n) :
    n.step plainNet (.arrive (.v4 0 0 0 0 11) ⟨[3], .v4 1 1 1 1 1⟩) =
      some { n with log := n.log ++ [(0, .arrive ⟨[3], .v4 1 1 1 1 1⟩)] } ∧
    n.step plainNet (.arrive (.v4 0 0 0 0 12) ⟨[3], .v4 1 1 1 1 1⟩) = some n := by
  have hs : (⟨0, .v4 0 0 0 0 11⟩ : OpenSender) ∈ n.openSenders ∧ n.sockets = [(0, .v4 0 0 0 0 11)] := by
    cases h
    exact ⟨List.mem_singleton.mpr rfl, rfl⟩
  refine ⟨C67_reply plainNet _ n h _ hs.1 _ _ (by decide), C67_unreached plainNet n _ _ ?_⟩
  rw [hs.2]
  decide

/-- `C66_call`: the call in `exampleLife`. -/
example (n : Node) (h : Node.init.run plainNet exampleLife = some n) (pre post : List (Nat × NEv))
    (hl : n.log = pre ++ (0, .net (.call 0 ⟨[1, 2]⟩ ⟨.v4 1 1 1 1 1⟩)) :: post) :=
  C66_call plainNet exampleLife n h 0 0 ⟨[1, 2]⟩ ⟨.v4 1 1 1 1 1⟩ pre post hl

/-- `C66_closed`: the sending socket after the start of the instance. -/
example (n n' : Node) (h : Node.init.run plainNet (exampleLife.take 6) = some n) (h' : n.run plainNet (exampleLife.drop 6) = some n') :=
  C66_closed plainNet (exampleLife.take 6) (exampleLife.drop 6) n n' h h' 1 (by cases h; exact List.mem_of_getElem? (i := 3) rfl)

/-- `C66_complete`: before `poll` fails. -/
example (n : Node) (h : Node.init.run plainNet (exampleLife.take 11) = some n) :=
  C66_complete plainNet (exampleLife.take 11) n h (n.threads[0]'(by cases h; decide)) (List.getElem_mem _) (by cases h; rfl)

/-- `C66_one_socket`: port 9, with an address of the machine. -/
example (n : Node) (h : Node.init.run plainNet (exampleLife.take 3) = some n) (t : Nat) (b : SocketAddr) (ht : (t, b) ∈ n.sockets)
    (h2 : plainNet.reaches b (.v4 0 0 0 0 9) = true) :=
  C66_one_socket plainNet (exampleLife.take 3) n h (.v4 0 0 0 0 9) 0 t (.v4 0 0 0 0 9) b
    (by cases h; decide) ht (by decide) h2

/-- `C67_source`: the packet of `exampleLife`. -/
example (n : Node) (h : Node.init.run plainNet exampleLife = some n) (pre post : List (Nat × NEv))
    (hl : n.log = pre ++ (1, .send (.v4 1 1 1 1 1) ⟨[7], .v4 0 0 0 0 8000⟩) :: post) :=
  C67_source plainNet exampleLife n h 1 (.v4 1 1 1 1 1) ⟨[7], .v4 0 0 0 0 8000⟩ pre post hl

/-- `C67_start_ends_sending`: and its socket. -/
example (n n1 n2 : Node) (h : Node.init.run plainNet (exampleLife.take 5) = some n) (h1 : n.step plainNet (.startInstance 0) = some n1)
    (h2 : n1.run plainNet (exampleLife.drop 6) = some n2) (x : OpenInstance) (hx : n.instances[0]? = some x) :=
  C67_start_ends_sending plainNet (exampleLife.take 5) (exampleLife.drop 6) n n1 n2 0 x h hx h1 h2

/-- `C66`, `C66_life` and `C66_waiting`: a process with one receiver. -/
example (N : Net) (a : Address) (b : SocketAddr) (n : Node) (h : Node.init.run N [.newReceiver a b] = some n) :=
  And.intro (C66 N _ n h 0) (And.intro (C66_life N _ n h 0) (C66_waiting N _ n h))

end Ipv8
