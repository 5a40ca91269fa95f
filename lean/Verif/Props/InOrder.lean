import Verif.Props.OnceOnly
/-!
# C117: acting on messages in their order

One number of memory is enough against replays: a community that acts on a message only if its global time is
higher than that of the last message it acted on.
-/

namespace Ipv8
open PacketDeserializer Spec

/-! ## The community -/

/-- The global time of a message whose first payload is a `TimeDistributionPayload`. -/
def Message.time (m : Message) : Option UInt64 :=
  match m.payloads with
  | ⟨.time, (v : TimeDistributionPayload)⟩ :: _ => some v.globalTime
  | _ => none

/-- An `on_receive` that makes the checks of C116 (it remembers no bytes: `[]`) and then acts on a message only if its time
is higher than `last`.  Its answer: the message it acts on now, if any, and the time it remembers from now on. -/
def actInOrder (R : Ring) (pk : Ed25519PublicKey) (types : Bytes → UInt8 → List Kind) (last : Option UInt64)
    (deserializer : PacketDeserializer) : Outcome (Option Message × Option UInt64) :=
  match actOnce R pk types [] deserializer with
  | .ok (some m, _) =>
    match m.time, last with
    | some t, some l => if l < t then .ok (some m, some t) else .ok (none, some l)
    | some t, none => .ok (some m, some t)
    | none, l => .ok (none, l)
  | .ok (none, _) => .ok (none, last)
  | .err e => .err e
  | .panic => .panic

/-- One call. -/
def orderStep (R : Ring) (pk : Ed25519PublicKey) (types : Bytes → UInt8 → List Kind) (s : List Message × Option UInt64)
    (p : Packet) : List Message × Option UInt64 :=
  match actInOrder R pk types s.2 p.startDeserialize with
  | .ok (some m, last) => (s.1 ++ [m], last)
  | .ok (none, last) => (s.1, last)
  | _ => s

/-- The messages it has acted on, in order, and the time it remembers, after it was called with these packets. -/
def actedInOrder (R : Ring) (pk : Ed25519PublicKey) (types : Bytes → UInt8 → List Kind) (packets : List Packet) :
    List Message × Option UInt64 :=
  packets.foldl (orderStep R pk types) ([], none)

/-- The packet can be accepted as this message, which is of the agreed types and has this time. -/
def Timed (R : Ring) (pk : Ed25519PublicKey) (types : Bytes → UInt8 → List Kind) (p : Packet) (m : Message)
    (t : UInt64) : Prop :=
  m.payloads.map (·.1) = types m.mid.1 m.type ∧ AcceptedAs R pk p m ∧ m.time = some t

/-! ## Proofs -/

/-- What holds after the packets in `done`. -/
structure OrderInv (R : Ring) (pk : Ed25519PublicKey) (types : Bytes → UInt8 → List Kind) (Signed : Message → Prop)
    (done : List Packet) (s : List Message × Option UInt64) : Prop where
  sorted : s.1.Pairwise fun m m' => ∃ t t', m.time = some t ∧ m'.time = some t' ∧ t < t'
  signed : ∀ m ∈ s.1, Signed m
  exact : ∀ m, m ∈ s.1 ↔ ∃ before p t, before ++ [p] <+: done ∧ Timed R pk types p m t ∧
    ∀ q ∈ before, ∀ m' t', Timed R pk types q m' t' → t' < t
  above : ∀ q ∈ done, ∀ m t, Timed R pk types q m t → ∃ l, s.2 = some l ∧ t ≤ l
  last : ∀ l, s.2 = some l → ∃ q ∈ done, ∃ m, Timed R pk types q m l
  acted : ∀ l, s.2 = some l → ∃ m ∈ s.1, m.time = some l

theorem orderStep_inv (R : Ring) (pk : Ed25519PublicKey) (types : Bytes → UInt8 → List Kind)
    (Signed : Message → Prop) (hconf : ∀ m, Signed m → m.Conforms types)
    (p : Packet) (hl : p.bytes.length ≤ usizeMax) (hunf : NotForged R pk Signed p.bytes)
    (done : List Packet) (s : List Message × Option UInt64) (h : OrderInv R pk types Signed done s) :
    OrderInv R pk types Signed (done ++ [p]) (orderStep R pk types s p) := by
  have hacc := fun m hty hm => actOnce_accepted R pk types Signed hconf p hl hunf m hty hm []
  -- a packet that gives nothing new
  have skip : (∀ m t, Timed R pk types p m t → ∃ l, s.2 = some l ∧ t ≤ l) →
      OrderInv R pk types Signed (done ++ [p]) s := by
    intro hold
    refine ⟨h.sorted, h.signed, ?_, ?_, ?_, h.acted⟩
    · intro m
      rw [h.exact]
      constructor
      · rintro ⟨before, q, t, g1, g2, g3⟩
        exact ⟨before, q, t, g1.trans (List.prefix_append _ _), g2, g3⟩
      · rintro ⟨before, q, t, g1, g2, g3⟩
        rcases List.prefix_concat_iff.mp g1 with g1 | g1
        · obtain ⟨e1, e2⟩ := List.append_inj' g1 rfl
          simp only [List.cons.injEq, and_true] at e2
          subst e1 e2
          obtain ⟨l, e3, e4⟩ := hold m t g2
          obtain ⟨q', f1, m', f2⟩ := h.last l e3
          have := g3 q' f1 m' l f2
          exact absurd this (by rw [UInt64.not_lt]; exact e4)
        · exact ⟨before, q, t, g1, g2, g3⟩
    · intro q hq m t hm
      rcases List.mem_append.mp hq with hq | hq
      · exact h.above q hq m t hm
      · rw [List.mem_singleton] at hq
        subst hq
        exact hold m t hm
    · intro l hl'
      obtain ⟨q, g1, g2⟩ := h.last l hl'
      exact ⟨q, by simp [g1], g2⟩
  by_cases hex : ∃ m, m.payloads.map (·.1) = types m.mid.1 m.type ∧ AcceptedAs R pk p m
  · obtain ⟨m, hty, hm⟩ := hex
    obtain ⟨hS, b, -, -, he⟩ := hacc m hty hm
    rw [if_neg (by simp)] at he
    have same : ∀ m' t', Timed R pk types p m' t' → m' = m := by
      rintro m' t' ⟨g1, g2, -⟩
      obtain ⟨-, b', -, -, he'⟩ := hacc m' g1 g2
      rw [if_neg (by simp), he] at he'
      simp only [Outcome.ok.injEq, Prod.mk.injEq, Option.some.injEq] at he'
      exact he'.1.symm
    have add : ∀ t, m.time = some t → (∀ l, s.2 = some l → l < t) →
        OrderInv R pk types Signed (done ++ [p]) (s.1 ++ [m], some t) := by
      intro t ht hnew
      have before_lt : ∀ q ∈ done, ∀ m' t', Timed R pk types q m' t' → t' < t := by
        intro q hq m' t' hm'
        obtain ⟨l, e1, e2⟩ := h.above q hq m' t' hm'
        exact UInt64.lt_of_le_of_lt e2 (hnew l e1)
      refine ⟨?_, ?_, ?_, ?_, ?_, ?_⟩
      · rw [List.pairwise_append]
        refine ⟨h.sorted, by simp, ?_⟩
        intro x hx y hy
        rw [List.mem_singleton] at hy
        subst hy
        obtain ⟨before, q, t', g1, g2, -⟩ := (h.exact x).mp hx
        exact ⟨t', t, g2.2.2, ht, before_lt q (g1.subset (by simp)) x t' g2⟩
      · intro x hx
        rcases List.mem_append.mp hx with hx | hx
        · exact h.signed x hx
        · rw [List.mem_singleton] at hx
          rw [hx]
          exact hS
      · intro x
        simp only [List.mem_append, List.mem_singleton, h.exact]
        constructor
        · rintro (⟨before, q, t', g1, g2, g3⟩ | rfl)
          · exact ⟨before, q, t', g1.trans (List.prefix_append _ _), g2, g3⟩
          · exact ⟨done, p, t, List.prefix_refl _, ⟨hty, hm, ht⟩, before_lt⟩
        · rintro ⟨before, q, t', g1, g2, g3⟩
          rcases List.prefix_concat_iff.mp g1 with g1 | g1
          · obtain ⟨e1, e2⟩ := List.append_inj' g1 rfl
            simp only [List.cons.injEq, and_true] at e2
            subst e1 e2
            exact .inr (same x t' g2)
          · exact .inl ⟨before, q, t', g1, g2, g3⟩
      · intro q hq x t' hx
        refine ⟨t, rfl, ?_⟩
        rcases List.mem_append.mp hq with hq | hq
        · exact UInt64.le_of_lt (before_lt q hq x t' hx)
        · rw [List.mem_singleton] at hq
          subst hq
          have e := same x t' hx
          have e2 := hx.2.2
          rw [e, ht] at e2
          cases e2
          exact UInt64.le_refl _
      · intro l e
        cases e
        exact ⟨p, by simp, m, hty, hm, ht⟩
      · intro l e
        cases e
        exact ⟨m, by simp, ht⟩
    unfold orderStep actInOrder
    rw [he]
    simp only
    cases ht : m.time with
    | none =>
      simp only
      refine skip ?_
      intro x t hx
      have e2 := hx.2.2
      rw [same x t hx, ht] at e2
      cases e2
    | some t =>
      cases hs : s.2 with
      | none =>
        simp only
        exact add t ht (by rw [hs]; simp)
      | some l =>
        simp only
        by_cases hlt : l < t
        · rw [if_pos hlt]
          exact add t ht (by rw [hs]; rintro _ ⟨⟩; exact hlt)
        · rw [if_neg hlt]
          simp only
          rw [← hs]
          refine skip ?_
          intro x t' hx
          have e2 := hx.2.2
          rw [same x t' hx, ht] at e2
          cases e2
          exact ⟨l, hs, UInt64.not_lt.mp hlt⟩
  · rcases actOnce_cases R pk types Signed hconf p hl hunf [] with he | he
    · unfold orderStep actInOrder
      rw [he]
      exact skip (fun m t hm => absurd ⟨m, hm.1, hm.2.1⟩ hex)
    · exact absurd he hex

theorem orderInv_all (R : Ring) (pk : Ed25519PublicKey) (types : Bytes → UInt8 → List Kind)
    (Signed : Message → Prop) (hconf : ∀ m, Signed m → m.Conforms types)
    (packets : List Packet) (hl : ∀ p ∈ packets, p.bytes.length ≤ usizeMax)
    (hunf : ∀ p ∈ packets, NotForged R pk Signed p.bytes) :
    OrderInv R pk types Signed packets (actedInOrder R pk types packets) := by
  have key : ∀ (packets done : List Packet) (s : List Message × Option UInt64),
      (∀ p ∈ packets, p.bytes.length ≤ usizeMax) → (∀ p ∈ packets, NotForged R pk Signed p.bytes) →
      OrderInv R pk types Signed done s →
      OrderInv R pk types Signed (done ++ packets) (packets.foldl (orderStep R pk types) s) := by
    intro packets
    induction packets with
    | nil => intro done s _ _ h; simpa using h
    | cons p ps ih =>
      intro done s hl hu h
      rw [List.foldl_cons, show done ++ p :: ps = (done ++ [p]) ++ ps by simp]
      exact ih _ _ (fun q hq => hl q (by simp [hq])) (fun q hq => hu q (by simp [hq]))
        (orderStep_inv R pk types Signed hconf p (hl p (by simp)) (hu p (by simp)) done s h)
  have h := key packets [] ([], none) hl hunf
    ⟨by simp, by simp, by simp, by simp, by simp, by simp⟩
  rw [List.nil_append] at h
  exact h

theorem remembered (R : Ring) (pk : Ed25519PublicKey) (types : Bytes → UInt8 → List Kind)
    (Signed : Message → Prop) (hconf : ∀ m, Signed m → m.Conforms types)
    (packets : List Packet) (hl : ∀ p ∈ packets, p.bytes.length ≤ usizeMax)
    (hunf : ∀ p ∈ packets, NotForged R pk Signed p.bytes)
    (p : Packet) (hp : p ∈ packets) (m : Message) (t : UInt64) (hm : Timed R pk types p m t) :
    ∃ l, (actedInOrder R pk types packets).2 = some l ∧ t ≤ l ∧
      ∃ m' ∈ (actedInOrder R pk types packets).1, m'.time = some l := by
  have h := orderInv_all R pk types Signed hconf packets hl hunf
  obtain ⟨l, e1, e2⟩ := h.above p hp m t hm
  exact ⟨l, e1, e2, h.acted l e1⟩

/-- **C117.**  The community has been called with any packets, none of them a forgery: the messages it has acted on have
strictly increasing times (so none is acted on twice) and were signed by the key holder; it has acted on exactly those whose
packet came before every packet with a time at least as high; and what it remembers is the highest time that came. -/
theorem C117 (R : Ring) (pk : Ed25519PublicKey) (types : Bytes → UInt8 → List Kind)
    (Signed : Message → Prop) (hconf : ∀ m, Signed m → m.Conforms types)
    (packets : List Packet) (hl : ∀ p ∈ packets, p.bytes.length ≤ usizeMax)
    (hunf : ∀ p ∈ packets, NotForged R pk Signed p.bytes) :
    ((actedInOrder R pk types packets).1.Pairwise fun m m' => ∃ t t', m.time = some t ∧ m'.time = some t' ∧ t < t') ∧
    (∀ m ∈ (actedInOrder R pk types packets).1, Signed m) ∧
    (∀ m, m ∈ (actedInOrder R pk types packets).1 ↔ ∃ before p t, before ++ [p] <+: packets ∧
      Timed R pk types p m t ∧ ∀ q ∈ before, ∀ m' t', Timed R pk types q m' t' → t' < t) ∧
    ∀ l, (actedInOrder R pk types packets).2 = some l ↔
      (∃ p ∈ packets, ∃ m, Timed R pk types p m l) ∧ ∀ p ∈ packets, ∀ m t, Timed R pk types p m t → t ≤ l := by
  have h := orderInv_all R pk types Signed hconf packets hl hunf
  refine ⟨h.sorted, h.signed, h.exact, ?_⟩
  intro l
  constructor
  · intro e
    refine ⟨h.last l e, ?_⟩
    intro p hp m t hm
    obtain ⟨l', e1, e2⟩ := h.above p hp m t hm
    rw [e] at e1
    cases e1
    exact e2
  · rintro ⟨⟨p, hp, m, hm⟩, hmax⟩
    obtain ⟨l', e1, e2⟩ := h.above p hp m l hm
    obtain ⟨q, hq, m', hm'⟩ := h.last l' e1
    have := hmax q hq m' l' hm'
    have : l = l' := UInt64.le_antisymm e2 this
    rw [this]
    exact e1

/-- **C117, no panic.**  If no authentication payload is among the agreed types, the community does not panic on any packet
at all. -/
theorem C117_any (R : Ring) (pk : Ed25519PublicKey) (types : Bytes → UInt8 → List Kind)
    (hty : ∀ mid t, ∀ k ∈ types mid t, k ≠ .auth)
    (packet : Packet) (hl : packet.bytes.length ≤ usizeMax) (last : Option UInt64) :
    actInOrder R pk types last packet.startDeserialize ≠ .panic := by
  have h := C116_any R pk types hty packet hl []
  unfold actInOrder
  split
  · split
    · split <;> simp
    · simp
    · simp
  · simp
  · simp
  · rename_i he
    exact absurd he h

/-- **C117, replays.**  When the community has been called with packets that are no forgeries, any of them may come again, any
number of times, in any order: it acts on nothing more. -/
theorem C117_replay (R : Ring) (pk : Ed25519PublicKey) (types : Bytes → UInt8 → List Kind)
    (Signed : Message → Prop) (hconf : ∀ m, Signed m → m.Conforms types)
    (packets again : List Packet) (hl : ∀ p ∈ packets, p.bytes.length ≤ usizeMax)
    (hunf : ∀ p ∈ packets, NotForged R pk Signed p.bytes) (hagain : ∀ p ∈ again, p ∈ packets) (m : Message) :
    m ∈ (actedInOrder R pk types (packets ++ again)).1 ↔ m ∈ (actedInOrder R pk types packets).1 := by
  have hall : ∀ p ∈ packets ++ again, p ∈ packets := by
    intro p hp
    rcases List.mem_append.mp hp with hp | hp
    · exact hp
    · exact hagain p hp
  rw [(C117 R pk types Signed hconf (packets ++ again) (fun p hp => hl p (hall p hp))
    (fun p hp => hunf p (hall p hp))).2.2.1, (C117 R pk types Signed hconf packets hl hunf).2.2.1]
  constructor
  · rintro ⟨before, p, t, h1, h2, h3⟩
    refine ⟨before, p, t, ?_, h2, h3⟩
    rcases Nat.lt_or_ge before.length packets.length with hlt | hge
    · refine List.prefix_of_prefix_length_le h1 (List.prefix_append _ _) ?_
      simp only [List.length_append, List.length_singleton]
      omega
    · -- the packet came before
      have hp := hall p (h1.subset (by simp))
      have hb : packets <+: before := by
        exact List.prefix_of_prefix_length_le (List.prefix_append packets again)
          ((List.prefix_append before [p]).trans h1) hge
      exact absurd (h3 p (hb.subset hp) m t h2) (UInt64.lt_irrefl _)
  · rintro ⟨before, p, t, h1, h2, h3⟩
    exact ⟨before, p, t, h1.trans (List.prefix_append _ _), h2, h3⟩

/-! ## Many computers -/

theorem packets_sent (ls : List WLabel) (w : World) (h : World.init.run ls = some w) (k : Nat)
    (host : Host) (hk : w.hosts[k]? = some host) (cs : List Community) (n : Nat)
    (hnode : host.listener = node cs n) (id : Nat) (packets : List Packet)
    (hp : packets.Perm (packetsFor id (host.listener.communityCalls host.state.trace))) :
    ∀ p ∈ packets, ∃ d ∈ sentTo host.address ls, p = ⟨d.bytes.take n⟩ := by
  intro p hpp
  have hmem := hp.mem_iff.mp hpp
  simp only [packetsFor, List.mem_map, List.mem_filter] at hmem
  obtain ⟨call, ⟨hc, -⟩, rfl⟩ := hmem
  obtain ⟨d, hd, -, -, -, -, -, -, -, h5, -⟩ := C62_community ls w h k host hk cs n hnode call hc
  exact ⟨d, hd, by rw [h5]⟩

/-- **C117, many computers.**  At any moment of any run, at any node on which communities are registered, whatever was sent to
it, forgeries excepted, lost, repeated or in whatever order, and in whatever order the threads of the pool call the community:
it has acted on messages of strictly increasing time, all of them signed by the key holder and sent to this node, and it
remembers no time but that of such a message. -/
theorem C117_network (R : Ring) (pk : Ed25519PublicKey) (types : Bytes → UInt8 → List Kind)
    (Signed : Message → Prop) (hconf : ∀ m, Signed m → m.Conforms types)
    (ls : List WLabel) (w : World) (h : World.init.run ls = some w) (k : Nat)
    (host : Host) (hk : w.hosts[k]? = some host) (cs : List Community) (n : Nat) (hn : n ≤ usizeMax)
    (hnode : host.listener = node cs n)
    (hunf : ∀ d ∈ sentTo host.address ls, NotForged R pk Signed (d.bytes.take n))
    (id : Nat) (packets : List Packet)
    (hp : packets.Perm (packetsFor id (host.listener.communityCalls host.state.trace))) :
    ((actedInOrder R pk types packets).1.Pairwise fun m m' => ∃ t t', m.time = some t ∧ m'.time = some t' ∧ t < t') ∧
    (∀ m ∈ (actedInOrder R pk types packets).1, Signed m ∧
      ∃ d ∈ sentTo host.address ls, AcceptedAs R pk ⟨d.bytes.take n⟩ m) ∧
    ∀ l, (actedInOrder R pk types packets).2 = some l →
      ∃ m, Signed m ∧ m.time = some l ∧ ∃ d ∈ sentTo host.address ls, AcceptedAs R pk ⟨d.bytes.take n⟩ m := by
  have sent := packets_sent ls w h k host hk cs n hnode id packets hp
  have hlen : ∀ p ∈ packets, p.bytes.length ≤ usizeMax := by
    intro p hpp
    obtain ⟨d, -, rfl⟩ := sent p hpp
    simp only [List.length_take]
    omega
  have hno : ∀ p ∈ packets, NotForged R pk Signed p.bytes := by
    intro p hpp
    obtain ⟨d, hd, rfl⟩ := sent p hpp
    exact hunf d hd
  obtain ⟨h1, h2, h3, h4⟩ := C117 R pk types Signed hconf packets hlen hno
  refine ⟨h1, fun m hm => ⟨h2 m hm, ?_⟩, ?_⟩
  · obtain ⟨before, p, t, g1, g2, -⟩ := (h3 m).mp hm
    obtain ⟨d, hd, rfl⟩ := sent p (g1.subset (by simp))
    exact ⟨d, hd, g2.2.1⟩
  · intro l hl
    obtain ⟨⟨p, hpp, m, g1, g2, g3⟩, -⟩ := (h4 l).mp hl
    have hS := (accepted_body R pk types Signed hconf p (hlen p hpp) (hno p hpp) m g1 g2).1
    obtain ⟨d, hd, rfl⟩ := sent p hpp
    exact ⟨m, hS, g3, d, hd, g2⟩

/-- **C117, progress.**  A message of the key holder with a time, signed and sent again and again over a fair network to a node
of which no community panics: from some moment on, the community remembers this time or a higher one, for ever, and so has
acted on this message or on a later one. -/
theorem C117_live (R : Ring) (pk : Ed25519PublicKey) (types : Bytes → UInt8 → List Kind)
    (Signed : Message → Prop) (hconf : ∀ m, Signed m → m.Conforms types)
    (W : WorldLife) (n0 k : Nat) (host : Host) (hk : (W.state n0).hosts[k]? = some host)
    (cs : List Community) (size : Nat) (hsz : size ≤ usizeMax) (hnode : host.listener = node cs size)
    (hcs : ∀ c ∈ cs, ∀ h d a, c.onReceive h d a ≠ .panic) (hf : W.FairTo k) (hs : W.SmoothAt k)
    (hunf : ∀ n, ∀ d ∈ sentTo host.address (W.upTo n), NotForged R pk Signed (d.bytes.take size))
    (m : Message) (t : UInt64) (htime : m.time = some t) (hm : Signed m) (b sig : Bytes) (hbody : m.Body pk b)
    (hsig : sig.length = 64) (hv : R.verify pk.1 b sig = true) (ht : reserved m.type = false)
    (hsize : (b ++ sig).length ≤ size) (c : Community) (hc : lastWith m.mid.1 cs = some c)
    (sender : SocketAddr) (hrep : W.Repeats sender host.address ⟨b ++ sig⟩)
    (hnet : W.FairLossy host.address ⟨b ++ sig, sender⟩) :
    ∃ n1, ∀ n, n1 ≤ n → ∃ s, (W.state n).hosts[k]? = some ⟨host.address, host.listener, s⟩ ∧
      ∀ packets : List Packet, packets.Perm (packetsFor c.id (host.listener.communityCalls s.trace)) →
        ∃ l, (actedInOrder R pk types packets).2 = some l ∧ t ≤ l ∧
          ∃ m' ∈ (actedInOrder R pk types packets).1, m'.time = some l := by
  obtain ⟨n1, h⟩ := C116_live R pk types Signed hconf W n0 k host hk cs size hsz hnode hcs hf hs hunf m hm b sig hbody
    hsig hv ht hsize c hc sender hrep hnet
  refine ⟨n1, fun n hn => ?_⟩
  obtain ⟨s, hs1, hs2⟩ := h n hn
  refine ⟨s, hs1, fun packets hp => ?_⟩
  have sent := packets_sent (W.upTo n) (W.state n) (upTo_run W n) k _ hs1 cs size hnode c.id packets hp
  have hlen : ∀ p ∈ packets, p.bytes.length ≤ usizeMax := by
    intro p hpp
    obtain ⟨d, -, rfl⟩ := sent p hpp
    simp only [List.length_take]
    omega
  have hno : ∀ p ∈ packets, NotForged R pk Signed p.bytes := by
    intro p hpp
    obtain ⟨d, hd, rfl⟩ := sent p hpp
    exact hunf n d hd
  obtain ⟨g1, p, g2, g3⟩ := ((C116 R pk types Signed hconf packets hlen hno).2.2 m).mp (hs2 packets hp).2
  exact remembered R pk types Signed hconf packets hlen hno p g2 m t ⟨g1, g3, htime⟩

/-! ## The hypotheses can be met -/

/-- `C117` and `C117_replay`: the signed message of C63, among packets that are not accepted. -/
example (packets : List Packet) (h : ∀ p ∈ packets, p = exampleSigned ∨ p = ⟨[1, 2, 3]⟩) (hin : exampleSigned ∈ packets) :
    (actedInOrder toyRing (FixedBytes.replicate 32 9) onceTypes packets).2 = some 3 := by
  have small : NotForged toyRing (FixedBytes.replicate 32 9) (· = exampleAuthentic) [1, 2, 3] := by
    intro b sig e hs
    have := congrArg List.length e
    rw [List.length_append, hs] at this
    simp at this
  have all := C117 toyRing (FixedBytes.replicate 32 9) onceTypes (· = exampleAuthentic) onceTypes_conforms packets
    (by intro p hp; rcases h p hp with rfl | rfl <;> decide +kernel)
    (by intro p hp; rcases h p hp with rfl | rfl; exact exampleAuthentic_notForged; exact small)
  refine (all.2.2.2 3).mpr ⟨⟨_, hin, exampleAuthentic, rfl, exampleSigned_accepted, rfl⟩, ?_⟩
  rintro p hp m t ⟨h1, h2, h3⟩
  obtain ⟨hS, -⟩ := accepted_body toyRing (FixedBytes.replicate 32 9) onceTypes (· = exampleAuthentic) onceTypes_conforms p
    (by rcases h p hp with rfl | rfl <;> decide +kernel)
    (by rcases h p hp with rfl | rfl; exact exampleAuthentic_notForged; exact small) m h1 h2
  subst hS
  cases h3
  decide

/-- `C117_any`: the agreement of the examples, on any packet. -/
example (packet : Packet) (hl : packet.bytes.length ≤ usizeMax) (last : Option UInt64) :
    actInOrder toyRing (FixedBytes.replicate 32 9) onceTypes last packet.startDeserialize ≠ .panic :=
  C117_any toyRing (FixedBytes.replicate 32 9) onceTypes
    (by intro mid t k hk; simp only [onceTypes] at hk; split at hk <;> simp at hk; rw [hk]; simp) packet hl last

/-- `C117_network` and `C117_live`: the message of C63, sent for ever over a network that never stops losing, to the node of
C91. -/
example : ∃ (c : Community) (W : WorldLife) (n1 : Nat), c.id = 2 ∧
    (∀ n, ∃ m, n ≤ m ∧ W.label m = some (.lose 0)) ∧
    ∀ n, n1 ≤ n → ∃ s, (W.state n).hosts[0]? = some ⟨.v4 9 9 9 9 9, node exampleNode 2048, s⟩ ∧
      ∀ packets : List Packet, packets.Perm (packetsFor c.id ((node exampleNode 2048).communityCalls s.trace)) →
        ∃ l, (actedInOrder toyRing (FixedBytes.replicate 32 9) onceTypes packets).2 = some l ∧ 3 ≤ l ∧
          ∃ m' ∈ (actedInOrder toyRing (FixedBytes.replicate 32 9) onceTypes packets).1, m'.time = some l := by
  obtain ⟨c, hc, hid⟩ : ∃ c, lastWith (List.replicate 20 8) exampleNode = some c ∧ c.id = 2 := ⟨_, rfl, rfl⟩
  obtain ⟨h1, h2, h3, h4, h5⟩ :=
    lossyLife_hypotheses (.v4 9 9 9 9 9) (node exampleNode 2048) rfl ⟨exampleSigned.bytes, .v4 1 2 3 4 5⟩
  have hbytes : exampleSigned.bytes = exampleBody ++ toyRing.sign (FixedBytes.replicate 32 9) exampleBody := by
    rw [exampleSigned_parts]
  obtain ⟨n1, h⟩ := C117_live toyRing (FixedBytes.replicate 32 9) onceTypes (· = exampleAuthentic) onceTypes_conforms
    (lossyLife (.v4 9 9 9 9 9) (node exampleNode 2048) rfl ⟨exampleSigned.bytes, .v4 1 2 3 4 5⟩) 1 0
    ⟨.v4 9 9 9 9 9, node exampleNode 2048, _⟩ rfl exampleNode 2048 (by decide) rfl
    (by
      intro c hc h d a
      simp only [exampleNode, List.mem_cons, List.not_mem_nil, or_false] at hc
      rcases hc with rfl | rfl <;> simp [exampleCommunity]) h1 h2
    (by
      intro n d hd
      have hd' := lossyLife_sent _ _ _ _ n d hd
      rw [hd', List.take_of_length_le (by decide +kernel)]
      exact exampleAuthentic_notForged)
    exampleAuthentic 3 rfl rfl exampleBody (toyRing.sign (FixedBytes.replicate 32 9) exampleBody) exampleAuthentic_body
    (by decide +kernel) (by decide +kernel) (by decide) (by decide +kernel) c hc (.v4 1 2 3 4 5)
    (by rw [← hbytes]; exact h3) (by rw [← hbytes]; exact h4)
  exact ⟨c, _, n1, hid, h5, h⟩

end Ipv8
