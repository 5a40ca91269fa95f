import Verif.Props.Network
import Verif.Props.Community
import Verif.Model.Ipv8
/-!
# Properties C48, C49, C52, C53: the IPv8 instance and the whole path of a message
-/

namespace Ipv8
open Spec PacketDeserializer

/-! ## C48: starting an instance -/

/-- The setup calls an application makes on an instance before starting it. -/
def IPv8.setupAll (i : IPv8) (setups : List Setup) : IPv8 := setups.foldl IPv8.setup i

/-- The receivers among the setup calls. -/
def receiversOf (setups : List Setup) : List Receiver :=
  setups.filterMap fun
    | .addReceiver r => some r
    | .addCommunity _ => none

/-- The communities among the setup calls. -/
def communitiesOf (setups : List Setup) : List Community :=
  setups.filterMap fun
    | .addReceiver _ => none
    | .addCommunity c => some c

theorem IPv8.new_ok {os : Os} {g g' : Global} {config : Config} {i : IPv8}
    (h : IPv8.new os g config = (.ok i, g')) :
    i = ⟨config, NetworkReceiver.new, config.sendingAddress, CommunityRegistry.default⟩ := by
  unfold IPv8.new at h
  split at h
  · cases h1 : os.bind config.receivingAddress with
    | err e => simp [h1] at h
    | panic => simp [h1] at h
    | ok u =>
      cases h2 : os.bind config.sendingAddress with
      | err e => simp [h1, h2] at h
      | panic => simp [h1, h2] at h
      | ok u' =>
        simp only [h1, h2, Outcome.ok_bind, Prod.mk.injEq] at h
        simpa using h.1.symm
  · simp at h
  · simp at h

/-- What the setup calls do: both lists grow in order. -/
theorem setupAll_eq (i : IPv8) (setups : List Setup) :
    (i.setupAll setups).networkReceiver.receivers = i.networkReceiver.receivers ++ receiversOf setups ∧
    (i.setupAll setups).config = i.config ∧
    (i.setupAll setups).communities =
      (communitiesOf setups).foldl (fun r c => (r.addCommunity c).2) i.communities := by
  induction setups generalizing i with
  | nil => simp [IPv8.setupAll, receiversOf, communitiesOf]
  | cons x xs ih =>
    have := ih (i.setup x)
    cases x with
    | addCommunity c =>
      simpa [IPv8.setupAll, receiversOf, communitiesOf, IPv8.setup] using this
    | addReceiver r =>
      simpa [IPv8.setupAll, receiversOf, communitiesOf, IPv8.setup, NetworkReceiver.addReceiver] using this

/-- C48, what holds: the started thread has the configured buffer size and calls exactly the receivers
that were added, in that order.  Missing: the communities; see `C48_false`. -/
theorem C48_partial (os : Os) (g g' : Global) (config : Config) (i : IPv8)
    (h : IPv8.new os g config = (.ok i, g')) (setups : List Setup) :
    (i.setupAll setups).start.receivers = receiversOf setups ∧
    (i.setupAll setups).start.buffersize = config.buffersize ∧
    (i.setupAll setups).communities = registered (communitiesOf setups) := by
  have hi := IPv8.new_ok h
  obtain ⟨h1, h2, h3⟩ := setupAll_eq i setups
  subst hi
  refine ⟨?_, ?_, ?_⟩
  · simp only [IPv8.start, h1]; rfl
  · simp only [IPv8.start, h2]
  · rw [h3]; rfl

/-- C48 is false: whatever communities are added, if the application does not add a receiver of its own,
no community is ever called, in no execution of the started thread. -/
theorem C48_false (os : Os) (g g' : Global) (config : Config) (i : IPv8)
    (h : IPv8.new os g config = (.ok i, g')) (cs : List Community) (queued : List Datagram)
    (ls : List Label) (s : NetState)
    (hrun : (i.setupAll (cs.map .addCommunity)).start.run
      ((i.setupAll (cs.map .addCommunity)).start.init queued) ls = some s) :
    (i.setupAll (cs.map .addCommunity)).start.communityCalls s.trace = [] := by
  have hr : (i.setupAll (cs.map .addCommunity)).start.receivers = [] := by
    rw [(C48_partial os g g' config i h _).1]
    induction cs with
    | nil => rfl
    | cons c cs ih => simp [receiversOf]
  unfold Listener.communityCalls
  rw [hr]
  simp only [List.getElem?_nil]
  rw [List.flatMap_eq_nil_iff]
  intro e _
  cases e <;> rfl

/-- An environment in which everything works. -/
def niceOs : Os := ⟨fun _ => .ok (), fun _ => .ok ()⟩

example : ∃ i, IPv8.new niceOs Global.init Config.default = (.ok i, ⟨.complete, [0]⟩) := ⟨_, rfl⟩

/-! ## C49: the thread pool -/

/-- Creating instances one after the other in a process; failed ones included. -/
def newAll (os : Os) (g : Global) : List Config → List (Outcome IPv8) × Global
  | [] => ([], g)
  | c :: cs =>
    let (o, g') := IPv8.new os g c
    let (os', g'') := newAll os g' cs
    (o :: os', g'')

theorem new_global (os : Os) (g : Global) (c : Config) :
    (g.once = .fresh → (IPv8.new os g c).2.once ≠ .fresh ∧
      (IPv8.new os g c).2.builds = g.builds ++ [c.threadcount]) ∧
    (g.once ≠ .fresh → (IPv8.new os g c).2 = g) := by
  unfold IPv8.new setupThreadpool
  cases h : g.once with
  | complete => simp
  | poisoned => simp
  | fresh =>
    simp only [true_implies, ne_eq, not_true_eq_false, false_implies, and_true]
    cases os.buildGlobal c.threadcount <;> simp

theorem newAll_started (os : Os) (g : Global) (h : g.once ≠ .fresh) (cs : List Config) :
    (newAll os g cs).2 = g := by
  induction cs generalizing g with
  | nil => rfl
  | cons c cs ih =>
    simp only [newAll, (new_global os g c).2 h]
    exact ih g h

/-- C49. However many instances a process creates, the pool builder runs once, with the thread count of
the first one. -/
theorem C49 (os : Os) (c : Config) (cs : List Config) :
    (newAll os Global.init (c :: cs)).2.builds = [c.threadcount] := by
  obtain ⟨h1, h2⟩ := (new_global os Global.init c).1 rfl
  simp only [newAll]
  rw [newAll_started os _ h1, h2]
  rfl

/-- C49. When the pool has been built, or could not be built, creating an instance fails only if a socket
cannot be bound; the answer of the pool builder plays no role. -/
theorem C49_later (os : Os) (g : Global) (hg : g.once = .complete) (c : Config) :
    ((IPv8.new os g c).1.isOk = true ↔
      (os.bind c.receivingAddress).isOk = true ∧ (os.bind c.sendingAddress).isOk = true) ∧
    (∀ other, (IPv8.new ⟨other, os.bind⟩ g c) = IPv8.new os g c) := by
  refine ⟨?_, fun _ => by unfold IPv8.new setupThreadpool; simp only [hg]⟩
  unfold IPv8.new setupThreadpool
  simp only [hg]
  · cases os.bind c.receivingAddress with
    | err e => simp [Outcome.isOk]
    | panic => simp [Outcome.isOk]
    | ok u => cases os.bind c.sendingAddress <;> simp [Outcome.isOk]

/-- C49. The first one reports the builder's failure; and if it fails that way, all later ones go through
all the same (with rayon's default pool). -/
theorem C49_first (os : Os) (c : Config) (e : Error) (h : os.buildGlobal c.threadcount = .err e) :
    (IPv8.new os Global.init c).1 = .err e ∧ (IPv8.new os Global.init c).2.once = .complete := by
  unfold IPv8.new setupThreadpool
  simp [Global.init, h]

/-- What binding the two sockets answers: the first failure counts. -/
def bindBoth (os : Os) (c : Config) : Outcome Unit :=
  match os.bind c.receivingAddress with
  | .ok () => os.bind c.sendingAddress
  | x => x

/-- The answer without the instance. -/
def answer : Outcome IPv8 → Outcome Unit
  | .ok _ => .ok ()
  | .err e => .err e
  | .panic => .panic

/-- C49. The answers of all `IPv8::new` calls of a process, one after the other.  The pool builder is asked by
the first one only.  If it is content, each call answers what binding its sockets answers; if it fails, the
first call answers with its error and the others as if nothing had happened; if it panics, all calls ever
made panic. -/
theorem C49_answers (os : Os) (c : Config) (cs : List Config) :
    (newAll os Global.init (c :: cs)).1.map answer =
      match os.buildGlobal c.threadcount with
      | .ok () => (c :: cs).map (bindBoth os)
      | .err e => .err e :: cs.map (bindBoth os)
      | .panic => (c :: cs).map fun _ => .panic := by
  have hc : ∀ (g : Global) (c : Config), g.once = .complete →
      answer (IPv8.new os g c).1 = bindBoth os c ∧ (IPv8.new os g c).2 = g := by
    intro g c hg
    unfold IPv8.new setupThreadpool bindBoth
    simp only [hg]
    cases os.bind c.receivingAddress with
    | err e => simp [answer]
    | panic => simp [answer]
    | ok u => cases os.bind c.sendingAddress <;> simp [answer]
  have hcs : ∀ (g : Global) (cs : List Config), g.once = .complete →
      (newAll os g cs).1.map answer = cs.map (bindBoth os) := by
    intro g cs hg
    induction cs with
    | nil => rfl
    | cons c cs ih => simp only [newAll, (hc g c hg).2, List.map_cons, (hc g c hg).1, ih]
  have hps : ∀ (g : Global) (cs : List Config), g.once = .poisoned →
      (newAll os g cs).1.map answer = cs.map fun _ => .panic := by
    intro g cs hg
    induction cs with
    | nil => rfl
    | cons c cs ih =>
      have h1 : IPv8.new os g c = (.panic, g) := by unfold IPv8.new setupThreadpool; simp [hg]
      simp only [newAll, h1, List.map_cons, ih, answer]
  cases hb : os.buildGlobal c.threadcount with
  | ok u =>
    have h0 : answer (IPv8.new os Global.init c).1 = bindBoth os c ∧
        (IPv8.new os Global.init c).2.once = .complete := by
      unfold IPv8.new setupThreadpool bindBoth
      simp only [Global.init, hb]
      cases os.bind c.receivingAddress with
      | err e => simp [answer]
      | panic => simp [answer]
      | ok u => cases os.bind c.sendingAddress <;> simp [answer]
    simp only [newAll, List.map_cons, h0.1, hcs _ cs h0.2]
  | err e =>
    have h0 := C49_first os c e hb
    simp only [newAll, List.map_cons, h0.1, answer, hcs _ cs h0.2]
  | panic =>
    have h0 : (IPv8.new os Global.init c).1 = .panic ∧ (IPv8.new os Global.init c).2.once = .poisoned := by
      unfold IPv8.new setupThreadpool
      simp [Global.init, hb]
    simp only [newAll, List.map_cons, h0.1, answer, hps _ cs h0.2]

/-- A builder that refuses: the first of three instances fails, the others do not. -/
example : (newAll ⟨fun _ => .err (.io 0), fun _ => .ok ()⟩ Global.init
    [Config.default, Config.default, Config.default]).1.map answer = [.err (.io 0), .ok (), .ok ()] :=
  C49_answers _ _ _

/-! ## C52: the whole path -/

/-- The listening thread of a node that forwards into a registry with these communities. -/
def node (cs : List Community) (buffersize : Nat) : Listener :=
  ⟨[registryReceiver (registered cs)], buffersize⟩

/-- That is what one gets from the API: new, add the communities, add the forwarding receiver, start. -/
theorem node_eq (os : Os) (g g' : Global) (config : Config) (i : IPv8)
    (h : IPv8.new os g config = (.ok i, g')) (cs : List Community) :
    (i.setupAll (cs.map .addCommunity ++ [.addReceiver (registryReceiver
      (i.setupAll (cs.map .addCommunity)).communities)])).start = node cs config.buffersize := by
  obtain ⟨h1, h2, _⟩ := C48_partial os g g' config i h (cs.map .addCommunity ++ [.addReceiver
    (registryReceiver (i.setupAll (cs.map .addCommunity)).communities)])
  obtain ⟨_, _, h3⟩ := C48_partial os g g' config i h (cs.map .addCommunity)
  have hr : ∀ (cs : List Community) x, receiversOf (cs.map .addCommunity ++ [.addReceiver x]) = [x] := by
    intro cs x
    induction cs with
    | nil => rfl
    | cons c cs ih => simp [receiversOf]
  have hc : ∀ cs : List Community, communitiesOf (cs.map .addCommunity) = cs := by
    intro cs
    induction cs with
    | nil => rfl
    | cons c cs ih => simpa [communitiesOf] using ih
  rw [hr, h3, hc] at h1
  have : ∀ l : Listener, l.receivers = [registryReceiver (registered cs)] →
      l.buffersize = config.buffersize → l = node cs config.buffersize := by
    rintro ⟨r, b⟩ rfl rfl; rfl
  refine this _ ?_ h2
  rw [h3, hc]
  exact h1

/-- The calls made for a sequence of datagrams. -/
def callsFor (cs : List Community) (ps : List (Packet × Address)) : List Call :=
  ps.flatMap fun x => ((registered cs).forwardMessage x.1 x.2).2

theorem communityCalls_node (cs : List Community) (n : Nat) (t : List Ev)
    (ho : ∀ r, 1 ≤ r → callsOf r t = []) :
    (node cs n).communityCalls t = callsFor cs (callsOf 0 t) := by
  induction t with
  | nil => rfl
  | cons e t ih =>
    cases e with
    | taken p a =>
      have ih' := ih (by intro r hr; simpa [callsOf] using ho r hr)
      simpa [Listener.communityCalls, callsOf] using ih'
    | ret r =>
      have ih' := ih (by intro r' hr; simpa [callsOf] using ho r' hr)
      simpa [Listener.communityCalls, callsOf] using ih'
    | call r p a =>
      have hr0 : r = 0 := by
        apply Classical.byContradiction
        intro hne
        have := ho r (by omega)
        simp [callsOf] at this
      subst hr0
      have ih' := ih (by
        intro r' hr'
        have := ho r' hr'
        simp only [callsOf] at this
        split at this
        · simp at this
        · exact this)
      simp only [Listener.communityCalls, List.flatMap_cons] at ih' ⊢
      rw [ih']
      simp [callsOf, callsFor, node, registryReceiver]

/-- C52, all messages: between two datagrams, the community calls that have been made are exactly those
that forwarding the received datagrams in order makes, for every history of arrivals and every
schedule. -/
theorem C52_history (cs : List Community) (n : Nat) (queued : List Datagram) (ls : List Label)
    (s : NetState) (h : (node cs n).run ((node cs n).init queued) ls = some s)
    (hi : idle s.phase = true) :
    ∃ handled, queued ++ arrivals ls = handled ++ s.queue ∧
      (node cs n).communityCalls s.trace = callsFor cs (handled.map (received n)) := by
  obtain ⟨handled, h1, h2, h3⟩ := C43 (node cs n) queued ls s h
  refine ⟨handled, h1, ?_⟩
  have ho := (C43_always (node cs n) queued ls s h).2
  rw [communityCalls_node cs n s.trace (by intro r hr; exact ho r (by simpa [node] using hr)),
    h3 hi 0 (by simp [node])]
  rfl

/-- What the community gets for a packet `q`: there is one call, of the community `c`, with the header,
the sender's address, and a deserializer at the start of the whole packet; and popping the header and
reading the types of `vs` from it yields exactly the payloads `vs`, to the end of the packet. -/
def DeliveredTo (c : Community) (mid : FixedBytes 20) (t : UInt8) (q : Packet) (vs : List AnyPayload)
    (sender : SocketAddr) (calls : List Call) : Prop :=
  calls = [⟨c.id, Header.pyIpv8Header mid t, ⟨q, 0⟩, ⟨sender⟩⟩] ∧
  ∃ d', popHeader ⟨q, 0⟩ = (.ok (Header.pyIpv8Header mid t), d') ∧
    readAll d' (vs.map (·.1)) = .ok (vs, ⟨q, q.bytes.length⟩)

/-- Any packet with a header, however it was made, reaches the community unaltered. -/
theorem delivered_packet (cs : List Community) (n : Nat) (mid : FixedBytes 20) (t : UInt8) (q : Packet)
    (hh : HasHeader q mid.1 t) (hn : q.bytes.length ≤ n)
    (c : Community) (hc : lastWith mid.1 cs = some c) (ht : reserved t = false)
    (sender : SocketAddr) (dest : Address) :
    callsFor cs [received n (NetworkSender.send sender dest q)] =
      [⟨c.id, Header.pyIpv8Header mid t, ⟨q, 0⟩, ⟨sender⟩⟩] := by
  have hcut : received n (NetworkSender.send sender dest q) = (q, ⟨sender⟩) := by
    simp only [received, NetworkSender.send, Packet.raw, List.take_of_length_le hn]
  have hfw := C40 cs q ⟨sender⟩ mid t hh c hc ht
  rw [hcut]
  simp [callsFor, hfw]

/-- One message: a packet made of a header and self-delimiting payloads that fits the buffer, sent
with `NetworkSender::send`, leads to exactly one call: of the community for its mid, with the header, the
sender's address, and a deserializer from which exactly the payloads can be read. -/
theorem delivered_message (cs : List Community) (n : Nat) (mid : FixedBytes 20) (t : UInt8)
    (vs : List AnyPayload)
    (hsd : ∀ x ∈ vs, x.1.SelfDelimiting) (hf : ∀ x ∈ vs, x.1.Fits x.2)
    (p q : Packet) (hp : Packet.new (Header.pyIpv8Header mid t) = .ok p) (hq : addAll p vs = .ok q)
    (hl : q.bytes.length ≤ usizeMax) (hn : q.bytes.length ≤ n)
    (c : Community) (hc : lastWith mid.1 cs = some c) (ht : reserved t = false)
    (sender : SocketAddr) (dest : Address) :
    DeliveredTo c mid t q vs sender (callsFor cs [received n (NetworkSender.send sender dest q)]) := by
  obtain ⟨d', h1, h2⟩ := C24 mid t vs hsd hf p q hp hq hl
  rw [C10_wire] at hp
  cases hp
  obtain ⟨w, hw⟩ := addAll_prefix hq
  exact ⟨delivered_packet cs n mid t q ⟨mid.2, w, hw⟩ hn c hc ht sender dest, d', h1, h2⟩

/-- A node that has taken exactly one datagram from the socket has made the calls for that datagram. -/
theorem handled_one (cs : List Community) (n : Nat) (ls : List Label) (s : NetState) (d : Datagram)
    (h : (node cs n).run ((node cs n).init []) ls = some s)
    (harr : arrivals ls = [d]) (hqueue : s.queue = []) (hi : idle s.phase = true) :
    (node cs n).communityCalls s.trace = callsFor cs [received n d] := by
  obtain ⟨handled, h1, h2⟩ := C52_history cs n [] ls s h hi
  rw [hqueue, harr] at h1
  simp only [List.nil_append, List.append_nil] at h1
  rw [h2, ← h1]
  rfl

/-- C52, end to end: when a fresh node has received such a packet and nothing else, in whatever execution
that took it from the socket, then once the thread is between datagrams exactly that delivery has
happened. -/
theorem C52 (cs : List Community) (n : Nat) (mid : FixedBytes 20) (t : UInt8)
    (vs : List AnyPayload)
    (hsd : ∀ x ∈ vs, x.1.SelfDelimiting) (hf : ∀ x ∈ vs, x.1.Fits x.2)
    (p q : Packet) (hp : Packet.new (Header.pyIpv8Header mid t) = .ok p) (hq : addAll p vs = .ok q)
    (hl : q.bytes.length ≤ usizeMax) (hn : q.bytes.length ≤ n)
    (c : Community) (hc : lastWith mid.1 cs = some c) (ht : reserved t = false)
    (sender : SocketAddr) (dest : Address) (ls : List Label) (s : NetState)
    (h : (node cs n).run ((node cs n).init []) ls = some s)
    (harr : arrivals ls = [NetworkSender.send sender dest q]) (hqueue : s.queue = [])
    (hi : idle s.phase = true) :
    DeliveredTo c mid t q vs sender ((node cs n).communityCalls s.trace) := by
  rw [handled_one cs n ls s _ h harr hqueue hi]
  exact delivered_message cs n mid t vs hsd hf p q hp hq hl hn c hc ht sender dest

/-- C52 with a last payload that extends to the end of the packet. -/
theorem C52_last (cs : List Community) (n : Nat) (mid : FixedBytes 20) (t : UInt8) (vs : List AnyPayload)
    (last : AnyPayload)
    (hsd : ∀ x ∈ vs, x.1.SelfDelimiting) (hf : ∀ x ∈ vs, x.1.Fits x.2)
    (hlast : last.1.CanBeLast last.2) (hfl : last.1.Fits last.2)
    (p q : Packet) (hp : Packet.new (Header.pyIpv8Header mid t) = .ok p)
    (hq : addAll p (vs ++ [last]) = .ok q)
    (hl : q.bytes.length ≤ usizeMax) (hn : q.bytes.length ≤ n)
    (c : Community) (hc : lastWith mid.1 cs = some c) (ht : reserved t = false)
    (sender : SocketAddr) (dest : Address) (ls : List Label) (s : NetState)
    (h : (node cs n).run ((node cs n).init []) ls = some s)
    (harr : arrivals ls = [NetworkSender.send sender dest q]) (hqueue : s.queue = [])
    (hi : idle s.phase = true) :
    DeliveredTo c mid t q (vs ++ [last]) sender ((node cs n).communityCalls s.trace) := by
  rw [handled_one cs n ls s _ h harr hqueue hi]
  obtain ⟨d', h1, h2⟩ := C24_last mid t vs last hsd hf hlast hfl p q hp hq hl
  rw [C10_wire] at hp
  cases hp
  obtain ⟨w, hw⟩ := addAll_prefix hq
  exact ⟨delivered_packet cs n mid t q ⟨mid.2, w, hw⟩ hn c hc ht sender dest, d', h1, h2⟩

/-- C52, authenticated messages: for a message with the sender's authentication payload and signature, the
community gets a deserializer on which popping the header and `verify` succeed, and which then yields
exactly the other payloads. -/
theorem C52_signed (R : Ring) (hR : R.Correct) (kp : KeyPair R) (pk : Ed25519PublicKey)
    (hpk : kp.publicKey = .ok pk) (cs : List Community) (n : Nat) (mid : FixedBytes 20) (t : UInt8)
    (enc : FixedBytes 32) (vs : List AnyPayload)
    (hsd : ∀ x ∈ vs, x.1.SelfDelimiting) (hf : ∀ x ∈ vs, x.1.Fits x.2)
    (p q sg : Packet) (hp : Packet.new (Header.pyIpv8Header mid t) = .ok p)
    (hq : addAll p (⟨.auth, BinMemberAuthenticationPayload.mk pk enc⟩ :: vs) = .ok q)
    (hs : q.sign kp = .ok sg) (hl : sg.bytes.length ≤ usizeMax) (hn : sg.bytes.length ≤ n)
    (c : Community) (hc : lastWith mid.1 cs = some c) (ht : reserved t = false)
    (sender : SocketAddr) (dest : Address) (ls : List Label) (s : NetState)
    (h : (node cs n).run ((node cs n).init []) ls = some s)
    (harr : arrivals ls = [NetworkSender.send sender dest sg]) (hqueue : s.queue = [])
    (hi : idle s.phase = true) :
    (node cs n).communityCalls s.trace = [⟨c.id, Header.pyIpv8Header mid t, ⟨sg, 0⟩, ⟨sender⟩⟩] ∧
    ∃ d d', popHeader ⟨sg, 0⟩ = (.ok (Header.pyIpv8Header mid t), d) ∧ d.verify R = (.ok true, d') ∧
      readAll d' (vs.map (·.1)) = .ok (vs, ⟨q, q.bytes.length⟩) := by
  rw [handled_one cs n ls s _ h harr hqueue hi]
  obtain ⟨d, d', h1, h2, h3⟩ := C32 R hR kp pk hpk mid t enc vs hsd hf p q sg hp hq hs hl
  refine ⟨delivered_packet cs n mid t sg ?_ hn c hc ht sender dest, d, d', h1, h2, h3⟩
  rw [C10_wire] at hp
  cases hp
  obtain ⟨w, hw⟩ := addAll_prefix hq
  rw [(C30 R hR kp q).1] at hs
  cases hs
  exact ⟨mid.2, w ++ R.sign kp.key q.bytes, by simp only [hw, List.append_assoc]⟩

/-- C52. The assumption of the next theorem, in terms of the communities: if no `on_receive` panics, then the
node's receiver does not, whatever comes in and whatever the communities return. -/
theorem C52_no_panics (cs : List Community) (n : Nat)
    (h : ∀ c ∈ cs, ∀ h d a, c.onReceive h d a ≠ .panic) : NoPanics (node cs n) := by
  intro x hx p a
  simp only [node, List.mem_singleton] at hx
  subst hx
  simp only [registryReceiver]
  cases hf : ((registered cs).forwardMessage p a).1 with
  | ok _ => rfl
  | err _ => rfl
  | panic =>
    obtain ⟨mid, t, c, _, hc, hp⟩ := (C42_converse cs p a).2 hf
    exact absurd hp (h c (List.mem_filter.mp (List.mem_of_getLast? hc)).1 _ _ _)

/-- C52, progress: if the communities do not panic and the datagram is the only one that arrives, then
however thread and pool are scheduled, at most a fixed number of steps are possible after the arrival, and
when no step is possible any more the delivery has happened. -/
theorem C52_progress (cs : List Community) (n : Nat) (hnp : NoPanics (node cs n))
    (mid : FixedBytes 20) (t : UInt8) (vs : List AnyPayload)
    (hsd : ∀ x ∈ vs, x.1.SelfDelimiting) (hf : ∀ x ∈ vs, x.1.Fits x.2)
    (p q : Packet) (hp : Packet.new (Header.pyIpv8Header mid t) = .ok p) (hq : addAll p vs = .ok q)
    (hl : q.bytes.length ≤ usizeMax) (hn : q.bytes.length ≤ n)
    (c : Community) (hc : lastWith mid.1 cs = some c) (ht : reserved t = false)
    (sender : SocketAddr) (dest : Address) (ls : List Label) (s : NetState)
    (h : (node cs n).run ((node cs n).init [])
      (.arrive (NetworkSender.send sender dest q) :: ls) = some s)
    (hls : ∀ x ∈ ls, internal x = true) :
    ls.length ≤ 6 ∧
    ((∀ x, internal x = true → (node cs n).step s x = none) →
      DeliveredTo c mid t q vs sender ((node cs n).communityCalls s.trace)) := by
  have harr : ∀ ls : List Label, (∀ x ∈ ls, internal x = true) → arrivals ls = [] := by
    intro ls hls
    induction ls with
    | nil => rfl
    | cons x ls ih =>
      have hx := hls x (by simp)
      have := ih (fun y hy => hls y (by simp [hy]))
      cases x <;> simp_all [internal, arrivals]
  have hsm : Smooth (.arrive (NetworkSender.send sender dest q) :: ls) := by
    intro x hx
    rcases List.mem_cons.mp hx with rfl | hx
    · exact .inr (.inr ⟨_, rfl⟩)
    · exact .inl (hls x hx)
  have hsp : ∀ (ls : List Label) (s : NetState), (∀ x ∈ ls, internal x = true) →
      SpacedFrom (node cs n) s ls := by
    intro ls
    induction ls with
    | nil => intro s _; trivial
    | cons x ls ih =>
      intro s hx
      refine ⟨?_, fun s' _ => ih s' (fun y hy => hx y (by simp [hy]))⟩
      rintro ⟨d, rfl⟩
      have := hx _ List.mem_cons_self
      simp [internal] at this
  constructor
  · have hrun := h
    simp only [Listener.run, Listener.step] at hrun
    have h1 : (node cs n).run ((node cs n).init []) [.arrive (NetworkSender.send sender dest q)] =
        some ⟨[NetworkSender.send sender dest q], true, ((node cs n).init []).buffer, .polling, []⟩ := rfl
    have := (C47_exact_partial (node cs n) hnp [] _ _ h1 (by
      intro x hx; exact hsm x (by simp at hx; simp [hx])) ls s hls hrun).1
    simpa [work, node] using this
  · intro hdone
    obtain ⟨hqe, _⟩ := C47_partial (node cs n) hnp [] (by simp) _ s h hsm
      ⟨fun _ => rfl, fun s' _ => hsp ls s' hls⟩ hdone
    have hh := healthy_run _ hnp _ s _ (healthy_init _ []) h hsm
    have hidle : idle s.phase = true := by
      rcases C47_progress _ s hh with ⟨hpol, _⟩ | ⟨x, s', hxi, hx⟩
      · rw [hpol]; rfl
      · rw [hdone x hxi] at hx; simp at hx
    exact C52 cs n mid t vs hsd hf p q hp hq hl hn c hc ht sender dest _ s h
      (by simp [arrivals, harr ls hls]) hqe hidle

/-- A node with two communities. -/
def exampleNode : List Community := [exampleCommunity 1 7, exampleCommunity 2 8]

/-- A packet for the second one. -/
def examplePacket : Packet := ⟨[0, 2] ++ List.replicate 20 8 ++ [246, 0, 0, 0, 0, 0, 0, 0, 3]⟩

/-- Delivering it. -/
def exampleDelivery : List Label :=
  [.arrive (NetworkSender.send (.v4 1 2 3 4 5) ⟨.v4 9 9 9 9 9⟩ examplePacket), .pollEvent, .recv,
    .start 0, .finish 0, .join]

example : addAll ⟨Spec.header (List.replicate 20 8) 246⟩ [⟨.time, TimeDistributionPayload.mk 3⟩] =
    .ok examplePacket := by decide +kernel
example : (lastWith (List.replicate 20 8) exampleNode).map (·.id) = some 2 ∧ reserved 246 = false := by
  decide +kernel
example : ∃ s, (node exampleNode 2048).run ((node exampleNode 2048).init []) exampleDelivery = some s ∧
    s.queue = [] ∧ idle s.phase = true ∧
    ((node exampleNode 2048).communityCalls s.trace).map (·.community) = [2] := by
  refine ⟨_, rfl, rfl, rfl, ?_⟩
  decide +kernel
example : NoPanics (node exampleNode 2048) := by
  refine C52_no_panics exampleNode 2048 ?_
  intro c hc h d a
  simp only [exampleNode, List.mem_cons, List.not_mem_nil, or_false] at hc
  rcases hc with rfl | rfl <;> simp [exampleCommunity]

/-! ## C53: the default configuration -/

/-- The addresses in the default configuration. -/
def defaultAddresses : List Address :=
  Config.default.sendingAddress :: Config.default.receivingAddress :: Config.default.defaultHosts

/-- Port of a socket address. -/
def portOf (a : Address) : UInt16 :=
  match a.sock with
  | .v4 _ _ _ _ port => port
  | .v6 _ port _ _ => port

/-- C53. All default addresses are IPv4 and have a wire form; any two of them can be put into a payload;
no bootstrap host has port 0. -/
theorem C53 :
    (∀ a ∈ defaultAddresses, isV4 a = true ∧ (addressBytes a).length = 6) ∧
    (∀ a ∈ defaultAddresses, ∀ b ∈ defaultAddresses, ∀ id, ∃ w, w.length = 14 ∧
      Writes (PuncturePayload.mk a b id) w ∧ ReadsAs w (PuncturePayload.mk a b id)) ∧
    (∀ a ∈ Config.default.defaultHosts, portOf a ≠ 0) := by
  have h1 : ∀ a ∈ defaultAddresses, isV4 a = true ∧ (addressBytes a).length = 6 := by decide +kernel
  refine ⟨h1, ?_, by decide +kernel⟩
  intro a ha b hb id
  obtain ⟨e1, e2, e3⟩ := C21_puncture ⟨a, b, id⟩ (by
    intro x hx
    simp only [addressesP, List.mem_cons, List.not_mem_nil, or_false] at hx
    rcases hx with rfl | rfl
    · exact (h1 _ ha).1
    · exact (h1 _ hb).1)
  exact ⟨_, e1, e2, e3⟩

/-- C53. With the default configuration a listening thread takes in datagrams of up to 2048 bytes
unaltered. -/
theorem C53_buffer (os : Os) (g g' : Global) (i : IPv8)
    (h : IPv8.new os g Config.default = (.ok i, g')) (setups : List Setup) (queued : List Datagram)
    (ls : List Label) (s : NetState)
    (hrun : (i.setupAll setups).start.run ((i.setupAll setups).start.init queued) ls = some s)
    (k : Nat) (d : Datagram) (hd : (queued ++ arrivals ls)[k]? = some d) (hlen : d.bytes.length ≤ 2048)
    (x : Packet × Address) (hx : (takenIn s.trace)[k]? = some x) : x = (⟨d.bytes⟩, ⟨d.source⟩) := by
  obtain ⟨p, a⟩ := x
  obtain ⟨d', h1, h2, h3, _⟩ := C45 _ queued ls s hrun k p a hx
  rw [hd] at h1
  cases h1
  rw [(C48_partial os g g' _ i h setups).2.1] at h3
  have := h3 hlen
  cases p
  simp only at this
  rw [this, h2]

/-! ## Cases for the theorems above -/

/-- `C49_later`: after the pool was built, an instance whose sending port is taken. -/
example : (IPv8.new ⟨fun _ => .ok (), fun a => if a = Config.default.sendingAddress then .err (.io 0) else .ok ()⟩
    ⟨.complete, [0]⟩ Config.default).1.isOk = false := by
  cases h : (IPv8.new ⟨fun _ => .ok (), fun a => if a = Config.default.sendingAddress then .err (.io 0) else .ok ()⟩
    ⟨.complete, [0]⟩ Config.default).1.isOk with
  | false => rfl
  | true =>
    have := ((C49_later _ _ rfl _).1.mp h).2
    simp [Outcome.isOk] at this

/-- `C52_last`: the last payload is an introduction request, which does not delimit itself. -/
example : ∃ (q : Packet) (s : NetState), DeliveredTo (exampleCommunity 2 8) (FixedBytes.replicate 20 8) 246 q
    [⟨.time, TimeDistributionPayload.mk 3⟩, ⟨.introRequest, exampleRequest⟩] (.v4 1 2 3 4 5)
    ((node exampleNode 2048).communityCalls s.trace) := by
  obtain ⟨q, hq, hl⟩ : ∃ q, addAll ⟨Spec.header (List.replicate 20 8) 246⟩
      ([⟨.time, TimeDistributionPayload.mk 3⟩] ++ [⟨.introRequest, exampleRequest⟩]) = .ok q ∧ q.bytes.length ≤ 2048 :=
    ⟨_, rfl, by decide +kernel⟩
  exact ⟨_, _, C52_last exampleNode 2048 (FixedBytes.replicate 20 8) 246 [⟨.time, TimeDistributionPayload.mk 3⟩]
    ⟨.introRequest, exampleRequest⟩ (by simp [Kind.SelfDelimiting]) (by simp [Kind.Fits]) trivial (by simp [Kind.Fits])
    _ q rfl hq (by simp only [usizeMax]; omega) hl (exampleCommunity 2 8) (by rfl) (by decide) (.v4 1 2 3 4 5) ⟨.v4 9 9 9 9 9⟩
    [.arrive _, .pollEvent, .recv, .start 0, .finish 0, .join] _ rfl rfl rfl rfl⟩

/-- `C52_signed`: a message signed with a key of the toy scheme. -/
example : ∃ (sg : Packet) (s : NetState), ((node exampleNode 2048).communityCalls s.trace).map (·.community) = [2] ∧
    ∃ d d', popHeader ⟨sg, 0⟩ = (.ok (Header.pyIpv8Header (FixedBytes.replicate 20 8) 246), d) ∧
      d.verify toyRing = (.ok true, d') := by
  obtain ⟨q, hq, hl⟩ : ∃ q, addAll ⟨Spec.header (List.replicate 20 8) 246⟩
      (⟨.auth, BinMemberAuthenticationPayload.mk (FixedBytes.replicate 32 9) (FixedBytes.replicate 32 2)⟩ ::
        [⟨.time, TimeDistributionPayload.mk 3⟩]) = .ok q ∧ q.bytes.length = 107 := ⟨_, rfl, by decide +kernel⟩
  obtain ⟨h1, h2⟩ := C30 toyRing toyRing_correct ⟨FixedBytes.replicate 32 9⟩ q
  obtain ⟨h3, d, d', h4, h5, -⟩ := C52_signed toyRing toyRing_correct ⟨FixedBytes.replicate 32 9⟩ (FixedBytes.replicate 32 9) (by rfl)
    exampleNode 2048 (FixedBytes.replicate 20 8) 246 (FixedBytes.replicate 32 2) [⟨.time, TimeDistributionPayload.mk 3⟩]
    (by simp [Kind.SelfDelimiting]) (by simp [Kind.Fits]) _ q _ rfl hq h1
    (by simp only [List.length_append]; rw [hl, h2]; decide) (by simp only [List.length_append]; rw [hl, h2]; decide)
    (exampleCommunity 2 8) (by rfl) (by decide) (.v4 1 2 3 4 5) ⟨.v4 9 9 9 9 9⟩
    [.arrive _, .pollEvent, .recv, .start 0, .finish 0, .join] _ rfl rfl rfl rfl
  exact ⟨_, _, by rw [h3]; rfl, d, d', h4, h5⟩

/-- `C53_buffer`: with the default configuration the datagram of five bytes arrives whole. -/
example (i : IPv8) (h : IPv8.new niceOs Global.init Config.default = (.ok i, ⟨.complete, [0]⟩)) (s : NetState)
    (hrun : (i.setupAll []).start.run ((i.setupAll []).start.init []) [.arrive exampleDatagram, .pollEvent, .recv] = some s)
    (x : Packet × Address) (hx : (takenIn s.trace)[0]? = some x) : x = (⟨[1, 2, 3, 4, 5]⟩, ⟨.v4 1 2 3 4 5⟩) :=
  C53_buffer niceOs Global.init _ i h [] [] _ s hrun 0 exampleDatagram rfl (by decide) x hx

/-- `C48_false`: an instance with two communities gets a message for one of them. -/
example (i : IPv8) (g' : Global) (h : IPv8.new niceOs Global.init Config.default = (.ok i, g')) (s : NetState)
    (hrun : (i.setupAll (exampleNode.map .addCommunity)).start.run ((i.setupAll (exampleNode.map .addCommunity)).start.init [])
      [.arrive ⟨examplePacket.bytes, .v4 1 2 3 4 5⟩, .pollEvent, .recv, .join] = some s) :=
  C48_false niceOs Global.init g' Config.default i h exampleNode [] _ s hrun

/-- `C52`, `C52_history`, `C52_progress`: the message of `exampleDelivery`. -/
example := C52 exampleNode 2048 (FixedBytes.replicate 20 8) 246 [⟨.time, TimeDistributionPayload.mk 3⟩]
  (by simp [Kind.SelfDelimiting]) (by simp [Kind.Fits]) ⟨Spec.header (List.replicate 20 8) 246⟩ examplePacket (by decide)
  (by decide +kernel) (by decide +kernel) (by decide +kernel) (exampleCommunity 2 8) (by rfl) (by decide) (.v4 1 2 3 4 5)
  ⟨.v4 9 9 9 9 9⟩ exampleDelivery _ rfl rfl rfl rfl
example := C52_history exampleNode 2048 [] exampleDelivery _ rfl rfl
example := C52_progress exampleNode 2048
  (by
    refine C52_no_panics exampleNode 2048 ?_
    intro c hc h d a
    simp only [exampleNode, List.mem_cons, List.not_mem_nil, or_false] at hc
    rcases hc with rfl | rfl <;> simp [exampleCommunity])
  (FixedBytes.replicate 20 8) 246 [⟨.time, TimeDistributionPayload.mk 3⟩]
  (by simp [Kind.SelfDelimiting]) (by simp [Kind.Fits]) ⟨Spec.header (List.replicate 20 8) 246⟩ examplePacket (by decide)
  (by decide +kernel) (by decide +kernel) (by decide +kernel) (exampleCommunity 2 8) (by rfl) (by decide) (.v4 1 2 3 4 5)
  ⟨.v4 9 9 9 9 9⟩ [.pollEvent, .recv, .start 0, .finish 0, .join] _ rfl (by simp [internal])

end Ipv8
