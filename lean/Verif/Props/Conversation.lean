import Verif.Props.Game
/-!
# C111: questions and answers

C97 there and back: a process asks again and again until it has its answer, another answers whenever it is asked.
-/

namespace Ipv8
open Spec

/-! ## Specification -/

/-- A listening thread to which C97 applies: from moment `n0` on it is a thread of process `k` with these receivers; the
pool of that process has threads, passes nobody over for ever and does not get new instances for ever; at this thread
nothing fails and nobody panics. -/
def FleetLife.Works {net : Nat → Net} (F : FleetLife net) (n0 k : Nat) (t : PThread) (l : Listener) : Prop :=
  ∃ (a : Machine) (hk : (F.state n0).machines[k]? = some a) (u : RMember), 1 ≤ a.pool.threads ∧
    (F.workers n0 k a hk).Fair ∧ (F.workers n0 k a hk).Settled ∧ t ∈ a.threads ∧
    a.pool.members[t.member]? = some u ∧ u.listener = l ∧ NoPanics l ∧
    (F.workers n0 k a hk).FairTo t.member ∧ (F.workers n0 k a hk).SmoothAt t.member

/-- One message on its way: as it is handed to the network, as NAT boxes make it arrive, and whom it is for. -/
structure Leg where
  sent : SocketAddr × Datagram
  came : SocketAddr × Datagram
  /-- the process that gets it -/
  process : Nat
  /-- its listening thread -/
  thread : PThread
  listener : Listener
  /-- the receiver in question -/
  receiver : Nat

/-- The network may lose this message any number of times, but not every time, and it is addressed to a thread that
works. -/
structure FleetLife.Carries {net : Nat → Net} (F : FleetLife net) (n0 : Nat) (g : Leg) : Prop where
  works : F.Works n0 g.process g.thread g.listener
  receiver : g.receiver < g.listener.receivers.length
  network : F.FairLossy g.sent.1 g.sent.2 g.process g.came.1 g.came.2
  reaches : (net g.process).reaches g.thread.address g.came.1 = true

/-- How often the receiver has been called with this message (cut to the buffer) up to moment `m`. -/
def FleetLife.got {net : Nat → Net} (F : FleetLife net) (g : Leg) (m : Nat) : Nat :=
  (callsOf g.receiver (threadIn (history g.thread.socket (processLog g.process (F.state m).log)))).count
    (⟨g.came.2.bytes.take g.listener.buffersize⟩, ⟨g.came.2.source⟩)

/-- At moment `m`, process `k` sends this. -/
def FleetLife.SendsAt {net : Nat → Net} (F : FleetLife net) (k m : Nat) (x : SocketAddr × Datagram) : Prop :=
  ∃ s, CEv.at k s (.send x.1 x.2) ∈ (F.state (m + 1)).log.drop (F.state m).log.length

/-- Whenever something has been noticed once more, process `k` sends this, some time later. -/
def FleetLife.Reacts {net : Nat → Net} (F : FleetLife net) (noticed : Nat → Nat) (k : Nat) (x : SocketAddr × Datagram) :
    Prop :=
  ∀ m, noticed m < noticed (m + 1) → ∃ m', m ≤ m' ∧ F.SendsAt k m' x

/-- A conversation: whoever is called with a message sends the next one. -/
def FleetLife.Converses {net : Nat → Net} (F : FleetLife net) : List Leg → Prop
  | [] => True
  | [_] => True
  | g :: g' :: gs => F.Reacts (F.got g) g.process g'.sent ∧ F.Converses (g' :: gs)

/-- A signed message: the header, the sender's authentication payload, payloads; what is signed, and the result. -/
structure Letter (R : Ring) where
  keys : KeyPair R
  key : Ed25519PublicKey
  mid : FixedBytes 20
  type : UInt8
  enc : FixedBytes 32
  payloads : List AnyPayload
  body : Packet
  message : Packet

/-- It was made with the functions of the crate, of self-delimiting payloads that fit, and is not of a reserved type. -/
structure Letter.Made {R : Ring} (x : Letter R) : Prop where
  key : x.keys.publicKey = .ok x.key
  made : ∃ p, Packet.new (Header.pyIpv8Header x.mid x.type) = .ok p ∧
    addAll p (⟨.auth, BinMemberAuthenticationPayload.mk x.key x.enc⟩ :: x.payloads) = .ok x.body
  signed : x.body.sign x.keys = .ok x.message
  delimited : ∀ v ∈ x.payloads, v.1.SelfDelimiting
  fits : ∀ v ∈ x.payloads, v.1.Fits v.2
  length : x.message.bytes.length ≤ usizeMax
  free : reserved x.type = false

/-- Whoever gets it can pop the header, verify the signature and read exactly these payloads. -/
def Letter.Readable {R : Ring} (x : Letter R) : Prop :=
  ∃ d d', (⟨x.message, 0⟩ : PacketDeserializer).popHeader = (.ok (Header.pyIpv8Header x.mid x.type), d) ∧
    d.verify R = (.ok true, d') ∧
    readAll d' (x.payloads.map (·.1)) = .ok (x.payloads, ⟨x.body, x.body.bytes.length⟩)

/-- A node whose communities get such messages: process, listening thread, communities, size of the buffer, and the
community in question. -/
structure Correspondent where
  process : Nat
  thread : PThread
  communities : List Community
  size : Nat
  community : Community

/-- It works, its communities do not panic, and this letter is for it and fits. -/
structure FleetLife.Expects {net : Nat → Net} (F : FleetLife net) (n0 : Nat) (c : Correspondent) {R : Ring} (x : Letter R) :
    Prop where
  works : F.Works n0 c.process c.thread (node c.communities c.size)
  calm : ∀ y ∈ c.communities, ∀ h d a, y.onReceive h d a ≠ .panic
  mid : lastWith x.mid.1 c.communities = some c.community
  fits : x.message.bytes.length ≤ c.size

/-- How often the community has been called with this letter, from this address, up to moment `m`. -/
def FleetLife.heard {net : Nat → Net} (F : FleetLife net) (c : Correspondent) {R : Ring} (x : Letter R)
    (source : SocketAddr) (m : Nat) : Nat :=
  ((node c.communities c.size).communityCalls
    (threadIn (history c.thread.socket (processLog c.process (F.state m).log)))).count
      ⟨c.community.id, Header.pyIpv8Header x.mid x.type, ⟨x.message, 0⟩, ⟨source⟩⟩

/-! ## Proofs -/

theorem FleetLife.SendsAt.emitted {net : Nat → Net} {F : FleetLife net} {k m : Nat} {x : SocketAddr × Datagram}
    (h : F.SendsAt k m x) : (x.1, x.2) ∈ emittedIn ((F.state (m + 1)).log.drop (F.state m).log.length) := by
  obtain ⟨s, h⟩ := h
  generalize (F.state (m + 1)).log.drop (F.state m).log.length = es at h
  induction es with
  | nil => cases h
  | cons e es ih =>
    rcases List.mem_cons.mp h with rfl | h
    · exact List.mem_cons_self
    · have := ih h
      unfold emittedIn
      split <;> simp_all

/-- What is noticed as often as you like is noticed again and again. -/
theorem unbounded_again {f : Nat → Nat} (h : ∀ n, ∃ m, n ≤ f m) (m0 : Nat) : ∃ m, m0 ≤ m ∧ f m < f (m + 1) := by
  have hmax : ∃ c, ∀ j, j ≤ m0 → f j ≤ c := by
    induction m0 with
    | zero => exact ⟨f 0, fun j hj => by rw [Nat.le_zero.mp hj]; exact Nat.le_refl _⟩
    | succ m ih =>
      obtain ⟨c, hc⟩ := ih
      refine ⟨max c (f (m + 1)), fun j hj => ?_⟩
      rcases Nat.lt_or_ge m j with h | h
      · rw [show j = m + 1 by omega]; exact Nat.le_max_right _ _
      · exact Nat.le_trans (hc j h) (Nat.le_max_left _ _)
  obtain ⟨c, hc⟩ := hmax
  obtain ⟨m, hm⟩ := h (c + 1)
  have hlt : m0 ≤ m := by
    rcases Nat.lt_or_ge m m0 with h | h
    · have := hc m (by omega); omega
    · exact h
  obtain ⟨j, h1, _, h3, h4⟩ := leaves (P := fun j => f j ≤ c) hlt (hc m0 (Nat.le_refl _)) (by omega)
  exact ⟨j, h1, by omega⟩

theorem FleetLife.Reacts.repeats {net : Nat → Net} {F : FleetLife net} {noticed : Nat → Nat} {k : Nat}
    {x : SocketAddr × Datagram} (h : F.Reacts noticed k x) (hn : ∀ n, ∃ m, n ≤ noticed m) : F.Repeats x.1 x.2 := by
  intro m
  obtain ⟨m1, h1, h2⟩ := unbounded_again hn m
  obtain ⟨m2, h3, h4⟩ := h m1 h2
  exact ⟨m2, by omega, h4.emitted⟩

theorem FleetLife.Carries.gets {net : Nat → Net} {F : FleetLife net} {n0 : Nat} {g : Leg} (h : F.Carries n0 g)
    (hrep : F.Repeats g.sent.1 g.sent.2) (n : Nat) : ∃ m, n ≤ F.got g m := by
  obtain ⟨a, hk, u, h1, h2, h3, h4, h5, h6, h7, h8, h9⟩ := h.works
  obtain ⟨m, -, hm⟩ := C97 net F n0 g.process a hk h1 h2 h3 g.thread h4 u h5 (by rw [h6]; exact h7) h8 h9 g.sent.1 g.came.1
    g.sent.2 g.came.2 hrep h.network h.reaches n
  rw [h6] at hm
  exact ⟨m, hm g.receiver h.receiver⟩

/-- **C111.**  A conversation of any length, between any processes: if the first message is handed to the network again
and again, and each process sends the next message whenever it has been called with the one before, then every one of
these messages gets through as often as you like, although the network loses any number of each. -/
theorem C111 (net : Nat → Net) (F : FleetLife net) (n0 : Nat) (first : Leg) (rest : List Leg)
    (hrep : F.Repeats first.sent.1 first.sent.2) (hcarry : ∀ g ∈ first :: rest, F.Carries n0 g)
    (hconv : F.Converses (first :: rest)) (g : Leg) (hg : g ∈ first :: rest) (n : Nat) : ∃ m, n ≤ F.got g m := by
  induction rest generalizing first with
  | nil =>
    rw [List.mem_singleton] at hg
    subst hg
    exact (hcarry _ List.mem_cons_self).gets hrep n
  | cons next rest ih =>
    have h0 := (hcarry first List.mem_cons_self).gets hrep
    rcases List.mem_cons.mp hg with rfl | hg
    · exact h0 n
    · exact ih next (hconv.1.repeats h0) (fun g hg => hcarry g (List.mem_cons_of_mem _ hg)) hconv.2 hg

/-- **C111, until it is answered.**  It is enough if the first message is sent again as long as the last one of the
conversation has not come `n` times: it will have. -/
theorem C111_until (net : Nat → Net) (F : FleetLife net) (n0 n : Nat) (first : Leg) (rest : List Leg) (last : Leg)
    (hlast : last ∈ first :: rest)
    (hask : ∀ m, n ≤ F.got last m ∨
      ∃ m', m ≤ m' ∧ (first.sent.1, first.sent.2) ∈ emittedIn ((F.state (m' + 1)).log.drop (F.state m').log.length))
    (hcarry : ∀ g ∈ first :: rest, F.Carries n0 g) (hconv : F.Converses (first :: rest)) :
    ∃ m, n ≤ F.got last m := by
  refine Classical.byContradiction fun hno => ?_
  refine hno (C111 net F n0 first rest (fun m => ?_) hcarry hconv last hlast n)
  rcases hask m with h | h
  · exact absurd ⟨m, h⟩ hno
  · exact h

theorem FleetLife.Expects.gets {net : Nat → Net} {F : FleetLife net} {n0 : Nat} {c : Correspondent} {R : Ring}
    {x : Letter R} (h : F.Expects n0 c x) (hR : R.Correct) (hx : x.Made) (dest0 dest source0 source : SocketAddr)
    (hnet : F.FairLossy dest0 ⟨x.message.bytes, source0⟩ c.process dest ⟨x.message.bytes, source⟩)
    (hr : (net c.process).reaches c.thread.address dest = true) :
    (F.Repeats dest0 ⟨x.message.bytes, source0⟩ → ∀ n, ∃ m, n ≤ F.heard c x source m) ∧ x.Readable := by
  obtain ⟨a, hk, u, h1, h2, h3, h4, h5, h6, h7, h8, h9⟩ := h.works
  obtain ⟨p, hp, hq⟩ := hx.made
  refine ⟨fun hrep n => ?_, C32 R hR x.keys x.key hx.key x.mid x.type x.enc x.payloads hx.delimited hx.fits p x.body
    x.message hp hq hx.signed hx.length⟩
  have hh : HasHeader x.message x.mid.1 x.type := by
    rw [C10_wire] at hp
    cases hp
    obtain ⟨w, hw⟩ := addAll_prefix hq
    have hsig := hx.signed
    rw [(C30 R hR x.keys x.body).1] at hsig
    cases hm : x.message with
    | mk b =>
      rw [hm] at hsig
      cases hsig
      exact ⟨x.mid.2, w ++ R.sign x.keys.key x.body.bytes, by simp [hw]⟩
  obtain ⟨m, -, hm⟩ := C97_community net F n0 c.process a hk h1 h2 h3 c.thread h4 u h5 c.communities c.size h6 h.calm h8 h9
    dest0 dest _ _ hrep hnet hr x.mid x.type hh hx.free h.fits c.community h.mid n
  rw [h6] at hm
  exact ⟨m, hm⟩

/-- **C111, signed questions and answers.**  A node signs a question and sends it again and again until one of its
communities has been called `n` times with the answer; another one, whose community is called with the question, signs
an answer and sends it whenever that happens.  Then the answer comes `n` times, whatever the network loses (as long as
it does not lose everything) and however it changes addresses; and whenever question or answer comes, popping the
header, `verify` and reading the payloads give the header, true, and exactly the payloads that were added. -/
theorem C111_signed (net : Nat → Net) (F : FleetLife net) (n0 n : Nat) (R : Ring) (hR : R.Correct)
    (asker answerer : Correspondent) (question answer : Letter R) (hq : question.Made) (ha : answer.Made)
    (h1 : F.Expects n0 answerer question) (h2 : F.Expects n0 asker answer)
    (to1 to1' from1 from1' to2 to2' from2 from2' : SocketAddr)
    (hnet1 : F.FairLossy to1 ⟨question.message.bytes, from1⟩ answerer.process to1' ⟨question.message.bytes, from1'⟩)
    (hr1 : (net answerer.process).reaches answerer.thread.address to1' = true)
    (hnet2 : F.FairLossy to2 ⟨answer.message.bytes, from2⟩ asker.process to2' ⟨answer.message.bytes, from2'⟩)
    (hr2 : (net asker.process).reaches asker.thread.address to2' = true)
    (hask : ∀ m, n ≤ F.heard asker answer from2' m ∨
      ∃ m', m ≤ m' ∧ F.SendsAt asker.process m' (to1, ⟨question.message.bytes, from1⟩))
    (hans : F.Reacts (F.heard answerer question from1') answerer.process (to2, ⟨answer.message.bytes, from2⟩)) :
    (∃ m, n ≤ F.heard asker answer from2' m) ∧ question.Readable ∧ answer.Readable := by
  obtain ⟨g1, g2⟩ := h1.gets hR hq to1 to1' from1 from1' hnet1 hr1
  obtain ⟨g3, g4⟩ := h2.gets hR ha to2 to2' from2 from2' hnet2 hr2
  refine ⟨Classical.byContradiction fun hno => ?_, g2, g4⟩
  refine hno (g3 (hans.repeats (g1 fun m => ?_)) n)
  rcases hask m with h | ⟨m', h, h'⟩
  · exact absurd ⟨m, h⟩ hno
  · exact ⟨m', h, h'.emitted⟩

/-! ## Such conversations are possible from every state -/

/-- A listening thread at which nothing went wrong so far. -/
structure Fleet.Sound (f : Fleet) (ls : List FLabel) (k : Nat) (t : PThread) (l : Listener) : Prop where
  there : ∃ a u, f.machines[k]? = some a ∧ 1 ≤ a.pool.threads ∧ t ∈ a.threads ∧ a.pool.members[t.member]? = some u ∧
    u.listener = l
  calm : NoPanics l
  smooth : ∀ y, .proc k (.work (.io t.member y)) ∈ ls → y = .pollEvent ∨ y = .recv ∨ y = .pollTimeout

theorem fleet_rounds (net : Nat → Net) (ls : List FLabel) (f : Fleet) (h : Fleet.init.run net ls = some f)
    (k process sender : Nat → Nat) (address : Nat → Address) (packet : Nat → Packet) (source : Nat → SocketAddr)
    (hk : ∀ i, k i < f.machines.length)
    (hsend : ∀ i, ∃ b x, f.machines[process i]? = some b ∧ b.senders[sender i]? = some x ∧ x.address = source i) :
    ∃ (F : FleetLife net) (turn : Nat → Nat), F.upTo ls.length = ls ∧ F.state ls.length = f ∧
      (∀ i, i ≤ turn i ∧
        (∃ b x, F.label (turn i) = some (.proc (process i) (.object (.send (sender i) (address i) (packet i)))) ∧
          (F.state (turn i)).machines[process i]? = some b ∧ b.senders[sender i]? = some x ∧ x.address = source i) ∧
        ∃ j, F.label (turn i + 1) = some (.deliver j (k i)) ∧
          (F.state (turn i + 1)).air[j]? = some ((address i).sock, ⟨(packet i).bytes, source i⟩)) ∧
      ∀ k t l, f.Sound ls k t l → F.Works ls.length k t l := by
  let index : List FLabel → Nat := fun past => past.countP FLabel.isDeliver - ls.countP FLabel.isDeliver
  let opponent : List FLabel → List FLabel := fun past =>
    [.proc (process (index past)) (.object (.send (sender (index past)) (address (index past)) (packet (index past)))),
      .deliver ((Fleet.init.run net past).getD Fleet.init).air.length (k (index past))]
  obtain ⟨F, turn, h0, h1, hf, hop, hfair⟩ := C102 net opponent ls f h
  have hlt : ∀ i, turn i < turn (i + 1) := fun i => by have := hop.later i; omega
  have hge : ∀ i, i ≤ turn i ∧ ls.length ≤ turn i := by
    intro i
    induction i with
    | zero => exact ⟨Nat.zero_le _, by omega⟩
    | succ i ih => have := hlt i; omega
  have hmild : ∀ m x, ls.length ≤ m → F.label m = some x → x.normal = true ∨
      (∃ c, x = .proc (process c) (.object (.send (sender c) (address c) (packet c)))) ∨ ∃ c j, x = .deliver c j := by
    intro m x hm hx
    rcases hop.cases (by omega) hx with hx | ⟨past, hx⟩
    · exact .inl hx
    · simp only [opponent, List.mem_cons, List.not_mem_nil, or_false] at hx
      rcases hx with rfl | rfl
      · exact .inr (.inl ⟨_, rfl⟩)
      · exact .inr (.inr ⟨_, _, rfl⟩)
  have hmild' : ∀ m x, ls.length ≤ m → F.label m = some x → x.mild = true := by
    intro m x hm hx
    rcases hmild m x hm hx with hx | ⟨c, rfl⟩ | ⟨c, j, rfl⟩
    · exact normal_mild hx
    · rfl
    · rfl
  -- the senders stay
  have hsenders : ∀ m, ls.length ≤ m → ∀ (j : Nat) (b : Machine), f.machines[j]? = some b →
      ∃ b' : Machine, (F.state m).machines[j]? = some b' ∧ b'.senders = b.senders := by
    intro m hm j b hj
    induction hm with
    | refl => exact ⟨b, by rw [hf]; exact hj, rfl⟩
    | @step m hm ih =>
      obtain ⟨b', g1, g2⟩ := ih
      have hst := F.step m
      cases hx : F.label m with
      | none => rw [hx] at hst; simp only at hst; exact ⟨b', by rw [hst]; exact g1, g2⟩
      | some x =>
        rw [hx] at hst
        simp only at hst
        obtain ⟨b'', g3, g4⟩ := mild_keeps hst (hmild' m x hm hx) j b' g1
        exact ⟨b'', g3, g4.trans g2⟩
  -- turns
  have hturn : ∀ i c, index (F.upTo (turn i)) = c →
      F.label (turn i) = some (.proc (process c) (.object (.send (sender c) (address c) (packet c)))) ∧
      F.label (turn i + 1) = some (.deliver (F.state (turn i)).air.length (k c)) ∧
      (F.state (turn i + 1)).air[(F.state (turn i)).air.length]? =
        some ((address c).sock, ⟨(packet c).bytes, source c⟩) ∧
      turn i + 2 < turn (i + 1) ∧
      ∀ m x, turn i + 2 ≤ m → m < turn (i + 1) → F.label m = some x → x.normal = true := by
    intro i c hc
    have hr' := F.run_upTo (turn i)
    have hopp : opponent (F.upTo (turn i)) =
        [.proc (process c) (.object (.send (sender c) (address c) (packet c))),
          .deliver (F.state (turn i)).air.length (k c)] := by
      simp only [opponent, hc, hr', Option.getD_some]
    obtain ⟨b, x, b1, b2, b3⟩ := hsend c
    obtain ⟨b', b4, b5⟩ := hsenders (turn i) (hge i).2 _ b b1
    obtain ⟨f1, e1, e2, e3⟩ := send_step (net := net) b4 (by rw [b5]; exact b2) (address c) (packet c)
    obtain ⟨kb, kb1, -⟩ := hsenders (turn i) (hge i).2 (k c) _ (List.getElem?_eq_getElem (hk c))
    have hklt := (List.getElem?_eq_some_iff.mp kb1).1
    obtain ⟨f2, e4⟩ := deliver_step (net := net) (f := f1) (i := (F.state (turn i)).air.length) (k := k c)
      (by rw [e2, List.length_append, List.length_singleton]; omega) (by rw [e3]; exact hklt)
    have hplayed : (F.state (turn i)).played net opponent (F.upTo (turn i)) =
        [.proc (process c) (.object (.send (sender c) (address c) (packet c))),
          .deliver (F.state (turn i)).air.length (k c)] := by
      unfold Fleet.played
      rw [if_pos, hopp]
      rw [hopp]
      simp only [Fleet.run, e1, e4, Option.isSome_some]
    have hla := hop.later i
    have hbe := hop.between i
    have hp0 := hop.plays i 0
    have hp1 := hop.plays i 1
    rw [hplayed] at hla hbe hp0 hp1
    simp only [List.length_cons, List.length_nil, Nat.zero_add, Nat.reduceAdd] at hla hbe hp0 hp1
    have hl0 := hp0 (by omega)
    refine ⟨hl0, hp1 (by omega), ?_, hla, hbe⟩
    have hst0 := F.step (turn i)
    rw [Nat.add_zero] at hl0
    simp only [List.getElem?_cons_zero] at hl0
    rw [hl0] at hst0
    simp only at hst0
    rw [e1] at hst0
    cases hst0
    rw [e2, List.getElem?_append_right (Nat.le_refl _), Nat.sub_self, b3]
    rfl
  have hcalm : ∀ m, (∀ x, F.label m = some x → x.normal = true ∨
        ∃ c, x = .proc (process c) (.object (.send (sender c) (address c) (packet c)))) →
      (F.upTo (m + 1)).countP FLabel.isDeliver = (F.upTo m).countP FLabel.isDeliver := by
    intro m hx
    rw [F.upTo_succ, List.countP_append]
    cases hlab : F.label m with
    | none => simp
    | some x =>
      have : x.isDeliver = false := by
        rcases hx _ hlab with hn | ⟨c, rfl⟩
        · unfold FLabel.normal at hn
          split at hn
          · rfl
          · cases hn
        · rfl
      simp [this]
  have hall : ∀ i, (F.upTo (turn i)).countP FLabel.isDeliver = ls.countP FLabel.isDeliver + i := by
    intro i
    induction i with
    | zero => rw [h0, h1]; simp
    | succ i ih =>
      obtain ⟨t1, t2, -, t4, t5⟩ := hturn i i (by simp only [index, ih]; omega)
      have s1 := hcalm (turn i) (fun x hx => by rw [t1] at hx; cases hx; exact .inr ⟨i, rfl⟩)
      have s2 : (F.upTo (turn i + 2)).countP FLabel.isDeliver = ls.countP FLabel.isDeliver + (i + 1) := by
        rw [F.upTo_succ, List.countP_append, t2, s1, ih]
        simp [FLabel.isDeliver]
        omega
      have s3 : ∀ m, turn i + 2 ≤ m → m ≤ turn (i + 1) →
          (F.upTo m).countP FLabel.isDeliver = ls.countP FLabel.isDeliver + (i + 1) := by
        intro m hm
        induction hm with
        | refl => intro _; exact s2
        | @step m hm ih => intro hle; rw [hcalm m (fun x hx => .inl (t5 m x hm (by omega) hx))]; exact ih (by omega)
      exact s3 _ (by omega) (Nat.le_refl _)
  have hindex : ∀ i, index (F.upTo (turn i)) = i := by
    intro i
    simp only [index, hall i]
    omega
  refine ⟨F, turn, h1, hf, fun i => ?_, fun k t l hsound => ?_⟩
  · obtain ⟨t1, t2, t3, -⟩ := hturn i i (hindex i)
    obtain ⟨b, x, b1, b2, b3⟩ := hsend i
    obtain ⟨b', b4, b5⟩ := hsenders (turn i) (hge i).2 _ b b1
    exact ⟨(hge i).1, ⟨b', x, t1, b4, by rw [b5]; exact b2, b3⟩, _, t2, t3⟩
  obtain ⟨⟨a, u, ha, hsize, ht, hu, hul⟩, hp, hs⟩ := hsound
  have hk' : (F.state ls.length).machines[k]? = some a := by rw [hf]; exact ha
  obtain ⟨fair, fairTo⟩ := hfair ls.length k a hk' hsize
  have hl : (F.workers ls.length k a hk').Settled := by
    refine ⟨ls.length, fun m l q hm hx => ?_⟩
    change (F.label m).bind _ = _ at hx
    cases hlab : F.label m with
    | none => rw [hlab] at hx; cases hx
    | some x =>
      rw [hlab, Option.bind_some] at hx
      rcases hmild m x hm hlab with hn | ⟨c, rfl⟩ | ⟨c, j, rfl⟩
      · unfold FLabel.normal at hn
        split at hn
        · simp only [Fleet.poolLabel] at hx
          split at hx
          · cases hb : (F.state m).machines[k]? with
            | none => rw [hb] at hx; cases hx
            | some b =>
              rw [hb] at hx
              simp only [Option.bind_some, Machine.poolLabel, Option.some.injEq] at hx
              subst hx
              cases hn
          · cases hx
        · cases hn
      · simp only [Fleet.poolLabel] at hx
        split at hx
        · cases hb : (F.state m).machines[k]? with
          | none => rw [hb] at hx; cases hx
          | some b => rw [hb] at hx; cases hx
        · cases hx
      · simp only [Fleet.poolLabel] at hx
        split at hx
        · split at hx
          · obtain ⟨_, _, hx⟩ := Option.map_eq_some_iff.mp hx
            cases hx
          · cases hx
        · cases hx
  have hst : (F.workers ls.length k a hk').SmoothAt t.member := by
    intro m y hx
    change (F.label m).bind _ = _ at hx
    cases hlab : F.label m with
    | none => rw [hlab] at hx; cases hx
    | some x =>
      rw [hlab, Option.bind_some] at hx
      unfold Fleet.poolLabel at hx
      split at hx
      · rename_i j z
        split at hx
        · rename_i hjk
          subst hjk
          cases hb : (F.state m).machines[j]? with
          | none => rw [hb] at hx; cases hx
          | some b =>
            rw [hb] at hx
            simp only [Option.bind_some] at hx
            unfold Machine.poolLabel at hx
            split at hx
            · obtain ⟨_, _, hx⟩ := Option.map_eq_some_iff.mp hx
              cases hx
            · obtain ⟨_, _, hx⟩ := Option.map_eq_some_iff.mp hx
              cases hx
            · cases hx
              rcases Nat.lt_or_ge m ls.length with hm | hm
              · have : FLabel.proc j (.work (.io t.member y)) ∈ F.upTo ls.length := by
                  unfold FleetLife.upTo
                  exact List.mem_filterMap.mpr ⟨m, List.mem_range.mpr hm, hlab⟩
                rw [h1] at this
                rcases hs y this with h | h | h
                · exact .inl h
                · exact .inr (.inl h)
                · exact .inr (.inr (.inl h))
              · rcases hmild m _ hm hlab with hn | ⟨c, hn⟩ | ⟨c, _, hn⟩
                · cases y <;> simp [FLabel.normal, TLabel.normal, TLabel.calm] at hn ⊢
                · cases hn
                · cases hn
            · cases hx
        · cases hx
      · split at hx
        · split at hx
          · obtain ⟨_, _, hx⟩ := Option.map_eq_some_iff.mp hx
            simp only [TLabel.io.injEq] at hx
            exact .inr (.inr (.inr ⟨_, hx.2.symm⟩))
          · cases hx
        · cases hx
      · cases hx
  exact ⟨a, hk', u, hsize, fair, hl, ht, hu, hul, hp, fairTo t.member, hst⟩

/-- **C111.**  From every state a system can get into, every conversation among threads at which nothing went wrong is
possible: there is a life of the system, continuing what has happened so far, in which everything holds that `C111` and
`C111_until` ask for.  (Message number `i + 1` is sent by the process that gets number `i`, from a sender it has; in the
life that is constructed, that happens again and again.) -/
theorem C111_possible (net : Nat → Net) (ls : List FLabel) (f : Fleet) (h : Fleet.init.run net ls = some f)
    (first : Leg) (rest : List Leg) (process : Nat → Nat)
    (hproc : ∀ i g, (first :: rest)[i]? = some g → process (i + 1) = g.process)
    (hsend : ∀ i g, (first :: rest)[i]? = some g →
      ∃ b x, f.machines[process i]? = some b ∧ x ∈ b.senders ∧ x.address = g.sent.2.source)
    (hsound : ∀ g ∈ first :: rest, f.Sound ls g.process g.thread g.listener ∧ g.receiver < g.listener.receivers.length ∧
      g.came = g.sent ∧ (net g.process).reaches g.thread.address g.came.1 = true) :
    ∃ F : FleetLife net, F.upTo ls.length = ls ∧ F.state ls.length = f ∧ F.Repeats first.sent.1 first.sent.2 ∧
      (∀ g ∈ first :: rest, F.Carries ls.length g) ∧ F.Converses (first :: rest) ∧
      ∀ i g, (first :: rest)[i]? = some g → ∀ m, ∃ m', m ≤ m' ∧ F.SendsAt (process i) m' g.sent := by
  let n := (first :: rest).length
  have hn : 0 < n := Nat.succ_pos _
  let leg : Nat → Leg := fun i => ((first :: rest)[i % n]?).getD first
  have hleg : ∀ i, (first :: rest)[i % n]? = some (leg i) := by
    intro i
    simp only [leg]
    rw [List.getElem?_eq_getElem (Nat.mod_lt _ hn)]
    rfl
  have hmem : ∀ i, leg i ∈ first :: rest := fun i => List.mem_of_getElem? (hleg i)
  have hs : ∀ i : Nat, ∃ j : Nat, ∃ (b : Machine) (x : OpenSender), f.machines[process (i % n)]? = some b ∧ b.senders[j]? = some x ∧
      x.address = (leg i).sent.2.source := by
    intro i
    obtain ⟨b, x, h1, h2, h3⟩ := hsend (i % n) (leg i) (hleg i)
    obtain ⟨j, hj⟩ := List.getElem?_of_mem h2
    exact ⟨j, b, x, h1, hj, h3⟩
  obtain ⟨sender, hsender⟩ := Classical.axiomOfChoice hs
  obtain ⟨F, turn, h1, h2, h3, h4⟩ := fleet_rounds net ls f h (fun i => (leg i).process) (fun i => process (i % n)) sender
    (fun i => ⟨(leg i).sent.1⟩) (fun i => ⟨(leg i).sent.2.bytes⟩) (fun i => (leg i).sent.2.source)
    (fun i => by
      obtain ⟨a, _, ha, _⟩ := (hsound _ (hmem i)).1.there
      exact (List.getElem?_eq_some_iff.mp ha).1) hsender
  have hemit : ∀ i, F.SendsAt (process (i % n)) (turn i) (leg i).sent := by
    intro i
    obtain ⟨-, ⟨b, x, g1, g2, g3, g4⟩, -⟩ := h3 i
    have hst := F.step (turn i)
    rw [g1] at hst
    simp only [Fleet.step, g2, Machine.step, NLabel.ofObjects, if_true] at hst
    rw [(C66_send (net (process (i % n))) b.objects (sender i) x ⟨(leg i).sent.1⟩ ⟨(leg i).sent.2.bytes⟩).1 g3] at hst
    simp only [Option.some.injEq] at hst
    refine ⟨x.socket, ?_⟩
    rw [← hst]
    simp [Machine.objects, g4]
  have hat : ∀ i g, (first :: rest)[i]? = some g → ∀ m, ∃ c, m ≤ c ∧ leg c = g ∧ c % n = i := by
    intro i g hg m
    have hi : i < n := (List.getElem?_eq_some_iff.mp hg).1
    have hmod : (n * m + i) % n = i := by rw [Nat.mul_add_mod, Nat.mod_eq_of_lt hi]
    refine ⟨n * m + i, Nat.le_trans (Nat.le_mul_of_pos_left m hn) (Nat.le_add_right _ _), ?_, hmod⟩
    have := hleg (n * m + i)
    rw [hmod, hg] at this
    exact (Option.some.inj this).symm
  have hagain : ∀ i g, (first :: rest)[i]? = some g → ∀ m, ∃ m', m ≤ m' ∧ F.SendsAt (process i) m' g.sent := by
    intro i g hg m
    obtain ⟨c, c1, c2, c3⟩ := hat i g hg m
    have := hemit c
    rw [c2, c3] at this
    exact ⟨turn c, Nat.le_trans c1 (h3 c).1, this⟩
  refine ⟨F, h1, h2, fun m => ?_, fun g hg => ?_, ?_, hagain⟩
  · obtain ⟨m', c1, c2⟩ := hagain 0 first rfl m
    exact ⟨m', c1, c2.emitted⟩
  · obtain ⟨g1, g2, g3, g4⟩ := hsound g hg
    refine ⟨h4 _ _ _ g1, g2, fun _ m => ?_, g4⟩
    obtain ⟨i, hi⟩ := List.getElem?_of_mem hg
    obtain ⟨c, c1, c2, -⟩ := hat i g hi m
    obtain ⟨d1, -, j, d2, d3⟩ := h3 c
    rw [c2] at d2 d3
    exact ⟨turn c + 1, j, by omega, d2, by rw [d3, g3]⟩
  · have key : ∀ (pre gs : List Leg), pre ++ gs = first :: rest → F.Converses gs := by
      intro pre gs
      induction gs generalizing pre with
      | nil => intro _; trivial
      | cons g gs ih =>
        intro he
        cases gs with
        | nil => trivial
        | cons g' gs =>
          refine ⟨fun m _ => ?_, ih (pre ++ [g]) (by rw [← he]; simp)⟩
          have e1 : (first :: rest)[pre.length]? = some g := by rw [← he]; simp
          have e2 : (first :: rest)[pre.length + 1]? = some g' := by rw [← he]; simp
          obtain ⟨m', c1, c2⟩ := hagain _ g' e2 m
          rw [hproc _ g e1] at c2
          exact ⟨m', c1, c2⟩
    exact key [] _ rfl

/-! ## A concrete case -/

/-- Two processes, each with a sender and a listening thread. -/
def talkSetup (r : Receiver) (size : Nat) : List FLabel :=
  [.boot 1, .boot 2,
   .proc 0 (.object (.newReceiver ⟨.v4 0 0 0 0 7⟩ (.v4 0 0 0 0 7))), .proc 0 (.object (.addReceiver 0 r)),
   .proc 0 (.startReceiver 0 { Config.default with buffersize := size }),
   .proc 0 (.object (.newSender ⟨.v4 2 2 2 2 2⟩ (.v4 2 2 2 2 2))),
   .proc 1 (.object (.newSender ⟨.v4 3 3 3 3 3⟩ (.v4 3 3 3 3 3))),
   .proc 1 (.object (.newReceiver ⟨.v4 0 0 0 0 9⟩ (.v4 0 0 0 0 9))), .proc 1 (.object (.addReceiver 0 r)),
   .proc 1 (.startReceiver 0 { Config.default with buffersize := size })]

/-- The state then. -/
def talkState (r : Receiver) (size : Nat) : Fleet where
  machines :=
    [⟨2, [⟨1, .v4 2 2 2 2 2⟩], [], [], [⟨0, .v4 0 0 0 0 7, 0⟩],
      ⟨1, [⟨⟨[r], size⟩, [], false, List.replicate size 0, .polling, []⟩], []⟩,
      [(0, .bind .receiver (.v4 0 0 0 0 7)), (0, .register r), (0, .start size), (1, .bind .sender (.v4 2 2 2 2 2))]⟩,
     ⟨2, [⟨0, .v4 3 3 3 3 3⟩], [], [], [⟨1, .v4 0 0 0 0 9, 0⟩],
      ⟨2, [⟨⟨[r], size⟩, [], false, List.replicate size 0, .polling, []⟩], []⟩,
      [(0, .bind .sender (.v4 3 3 3 3 3)), (1, .bind .receiver (.v4 0 0 0 0 9)), (1, .register r), (1, .start size)]⟩]
  air := []
  log := [.at 0 0 (.bind .receiver (.v4 0 0 0 0 7)), .at 0 0 (.register r), .at 0 0 (.start size),
    .at 0 1 (.bind .sender (.v4 2 2 2 2 2)), .at 1 0 (.bind .sender (.v4 3 3 3 3 3)),
    .at 1 1 (.bind .receiver (.v4 0 0 0 0 9)), .at 1 1 (.register r), .at 1 1 (.start size)]

theorem talk_run (r : Receiver) (size : Nat) :
    Fleet.init.run (fun _ => plainNet) (talkSetup r size) = some (talkState r size) := by
  rfl

/-- The first one asks the second one. -/
def talkQuestion (r : Receiver) (size : Nat) (w : Bytes) : Leg :=
  ⟨(.v4 0 0 0 0 9, ⟨w, .v4 2 2 2 2 2⟩), (.v4 0 0 0 0 9, ⟨w, .v4 2 2 2 2 2⟩), 1, ⟨1, .v4 0 0 0 0 9, 0⟩, ⟨[r], size⟩, 0⟩

/-- The second one answers. -/
def talkAnswer (r : Receiver) (size : Nat) (w : Bytes) : Leg :=
  ⟨(.v4 0 0 0 0 7, ⟨w, .v4 3 3 3 3 3⟩), (.v4 0 0 0 0 7, ⟨w, .v4 3 3 3 3 3⟩), 0, ⟨0, .v4 0 0 0 0 7, 0⟩, ⟨[r], size⟩, 0⟩

/-- Everything that `C111` asks for, for the two of them. -/
theorem talk_hypotheses (r : Receiver) (h : ∀ p a, r.mayPanic p a = false) (size : Nat) (w v : Bytes) :
    ∃ F : FleetLife fun _ => plainNet, F.upTo 10 = talkSetup r size ∧
      F.Repeats (talkQuestion r size w).sent.1 (talkQuestion r size w).sent.2 ∧
      (∀ g ∈ [talkQuestion r size w, talkAnswer r size v], F.Carries 10 g) ∧
      F.Converses [talkQuestion r size w, talkAnswer r size v] ∧
      (∀ m, ∃ m', m ≤ m' ∧ F.SendsAt 0 m' (talkQuestion r size w).sent) ∧
      ∀ m, ∃ m', m ≤ m' ∧ F.SendsAt 1 m' (talkAnswer r size v).sent := by
  have hn : NoPanics ⟨[r], size⟩ := by simpa [NoPanics] using h
  obtain ⟨F, h1, -, h3, h4, h5, h6⟩ := C111_possible (fun _ => plainNet) _ _ (talk_run r size) (talkQuestion r size w)
    [talkAnswer r size v] (fun i => i % 2)
    (fun i g hg => by
      match i with
      | 0 => cases hg; rfl
      | 1 => cases hg; rfl
      | i + 2 => cases hg)
    (fun i g hg => by
      match i with
      | 0 => cases hg; exact ⟨_, ⟨1, .v4 2 2 2 2 2⟩, rfl, List.mem_cons_self, rfl⟩
      | 1 => cases hg; exact ⟨_, ⟨0, .v4 3 3 3 3 3⟩, rfl, List.mem_cons_self, rfl⟩
      | i + 2 => cases hg)
    (fun g hg => by
      simp only [List.mem_cons, List.not_mem_nil, or_false] at hg
      rcases hg with rfl | rfl
      · exact ⟨⟨⟨_, _, rfl, (show 1 ≤ 2 by omega), List.mem_cons_self, rfl, rfl⟩, hn, by simp [talkSetup]⟩, Nat.zero_lt_one, rfl,
          rfl⟩
      · exact ⟨⟨⟨_, _, rfl, Nat.le_refl _, List.mem_cons_self, rfl, rfl⟩, hn, by simp [talkSetup]⟩, Nat.zero_lt_one, rfl, rfl⟩)
  exact ⟨F, h1, h3, h4, h5, h6 0 _ rfl, h6 1 _ rfl⟩

/-- The hypotheses of `C111` and `C111_until` can be met; those of `C111_possible` are in `talk_hypotheses`. -/
example (r : Receiver) (h : ∀ p a, r.mayPanic p a = false) (size : Nat) (w v : Bytes) (n : Nat) :
    ∃ F : FleetLife fun _ => plainNet, F.upTo 10 = talkSetup r size ∧ ∃ m, n ≤ F.got (talkAnswer r size v) m := by
  obtain ⟨F, h1, h2, h3, h4, -⟩ := talk_hypotheses r h size w v
  exact ⟨F, h1, C111_until _ F 10 n _ _ _ (List.mem_cons_of_mem _ List.mem_cons_self) (fun m => .inr (h2 m)) h3 h4⟩

/-- So can those of `C111_signed`: two nodes with two communities each, the toy signature scheme and the signed message of
`Props/Authentic.lean`, as question and as answer. -/
example (n : Nat) :
    ∃ (F : FleetLife fun _ => plainNet) (asker : Correspondent) (x : Letter toyRing), x.message = exampleSigned ∧
      x.Made ∧ (∃ m, n ≤ F.heard asker x (.v4 3 3 3 3 3) m) ∧ x.Readable := by
  obtain ⟨F, -, h2, h3, -, h5, h6⟩ := talk_hypotheses (registryReceiver (registered exampleNode)) (by
    have : NoPanics (node exampleNode 2048) := C52_no_panics exampleNode 2048 (by
      intro c hc h d a
      simp only [exampleNode, List.mem_cons, List.not_mem_nil, or_false] at hc
      rcases hc with rfl | rfl <;> simp [exampleCommunity])
    simpa [NoPanics, node] using this) 2048 exampleSigned.bytes exampleSigned.bytes
  obtain ⟨c, hc⟩ : ∃ c, lastWith (FixedBytes.replicate 20 8).1 exampleNode = some c :=
    Option.isSome_iff_exists.mp (by decide +kernel)
  have hcs : ∀ y ∈ exampleNode, ∀ h d a, y.onReceive h d a ≠ .panic := by
    intro c hc h d a
    simp only [exampleNode, List.mem_cons, List.not_mem_nil, or_false] at hc
    rcases hc with rfl | rfl <;> simp [exampleCommunity]
  let x : Letter toyRing := ⟨⟨FixedBytes.replicate 32 9⟩, FixedBytes.replicate 32 9, FixedBytes.replicate 20 8, 246,
    FixedBytes.replicate 32 2, [⟨.time, (⟨3⟩ : TimeDistributionPayload)⟩], ⟨exampleBody⟩, exampleSigned⟩
  have hx : x.Made := ⟨rfl, ⟨⟨Spec.header (List.replicate 20 8) 246⟩, by decide +kernel, by decide +kernel⟩,
    by decide +kernel, by simp [x, Kind.SelfDelimiting], by simp [x, Kind.Fits], by decide +kernel, by decide⟩
  have hlen : exampleSigned.bytes.length ≤ 2048 := by decide +kernel
  have c1 := h3 _ List.mem_cons_self
  have c2 := h3 _ (List.mem_cons_of_mem _ List.mem_cons_self)
  have := C111_signed (fun _ => plainNet) F 10 n toyRing toyRing_correct
    ⟨0, ⟨0, .v4 0 0 0 0 7, 0⟩, exampleNode, 2048, c⟩ ⟨1, ⟨1, .v4 0 0 0 0 9, 0⟩, exampleNode, 2048, c⟩ x x hx hx
    ⟨c1.works, hcs, hc, hlen⟩ ⟨c2.works, hcs, hc, hlen⟩ _ _ _ _ _ _ _ _ c1.network c1.reaches c2.network c2.reaches
    (fun m => .inr (h5 m)) (fun m _ => h6 m)
  exact ⟨F, _, x, rfl, hx, this.1, this.2.1⟩

end Ipv8
