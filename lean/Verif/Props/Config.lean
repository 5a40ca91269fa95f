import Verif.Props.Backlog
import Verif.Props.System
import Verif.Props.Node
/-!
# C53 (continued), C73: the configuration
-/

namespace Ipv8

open Spec

/-- Is this a step in which `poll` times out? -/
def isTimeout : Label → Bool
  | .pollTimeout => true
  | _ => false

theorem run_without_timeouts (l : Listener) (ls : List Label) (s s' : NetState)
    (h : l.run s ls = some s') : l.run s (ls.filter fun x => !isTimeout x) = some s' := by
  induction ls generalizing s with
  | nil => exact h
  | cons x ls ih =>
    simp only [Listener.run] at h
    split at h
    · next m hm =>
      have hm' := ih m h
      cases x with
      | pollTimeout =>
        have : m = s := by
          simp only [Listener.step] at hm
          split at hm <;> simp_all
        subst this
        simpa [isTimeout] using hm'
      | _ =>
        rw [List.filter_cons_of_pos (by rfl)]
        simp only [Listener.run, hm]
        exact hm'
    · simp at h

theorem arrivals_filter (ls : List Label) :
    arrivals (ls.filter fun x => !isTimeout x) = arrivals ls := by
  induction ls with
  | nil => rfl
  | cons x ls ih => cases x <;> simp_all [isTimeout, arrivals]

/-- C73. `queuesize` (if it is not 0) and `pollinterval` have no observable effect: whatever state, and
whatever history of calls, is possible for some arrivals at all (with any configuration) is possible for
the same arrivals under every configuration. -/
theorem C73 (l : Listener) (c : Config) (hc : c.queuesize ≠ 0) (queued : List Datagram)
    (ls : List Label) (s : NetState) (h : l.run (l.init queued) ls = some s) :
    ∃ ls', l.run (l.init queued) ls' = some s ∧ arrivals ls' = arrivals ls ∧
      ∀ x ∈ ls', c.allows x = true := by
  refine ⟨_, run_without_timeouts l ls _ _ h, arrivals_filter ls, ?_⟩
  intro x hx
  obtain ⟨-, hx⟩ := List.mem_filter.mp hx
  cases x <;> simp_all [Config.allows, isTimeout]

theorem empty_run (l : Listener) (c : Config) (hc : c.queuesize = 0) (ls : List Label) (s s' : NetState)
    (hp : s.phase = .polling ∨ s.phase = .stopped .pollError) (h : l.run s ls = some s')
    (hal : ∀ x ∈ ls, c.allows x = true) :
    s'.trace = s.trace ∧ s'.queue = s.queue ++ arrivals ls ∧
      (s'.phase = .polling ∨ s'.phase = .stopped .pollError) := by
  induction ls generalizing s with
  | nil =>
    simp only [Listener.run, Option.some.injEq] at h
    subst h
    exact ⟨rfl, by simp [arrivals], hp⟩
  | cons x ls ih =>
    simp only [Listener.run] at h
    split at h
    · next m hm =>
      have hx := hal x (by simp)
      have hih := fun hp' => ih m hp' h (fun y hy => hal y (by simp [hy]))
      cases x <;> simp [Config.allows, hc] at hx <;> rcases hp with hp | hp <;>
        simp [Listener.step, hp] at hm <;> subst hm <;> simp_all [arrivals]
    · simp at h

/-- C73. With `queuesize` 0 a node is deaf: whatever arrives, nothing is ever taken from the socket, no
receiver is called, and the only thing the listening thread can do is end with an error. -/
theorem C73_zero (l : Listener) (c : Config) (hc : c.queuesize = 0) (queued : List Datagram)
    (ls : List Label) (s : NetState) (h : l.run (l.init queued) ls = some s)
    (hal : ∀ x ∈ ls, c.allows x = true) :
    s.trace = [] ∧ s.queue = queued ++ arrivals ls ∧
    (∀ x s', c.allows x = true → l.step s x = some s' →
      (∃ d, x = .arrive d) ∨ s'.phase = .stopped .pollError) := by
  obtain ⟨h1, h2, h3⟩ := empty_run l c hc ls _ s (.inl rfl) h hal
  refine ⟨h1, h2, ?_⟩
  intro x s' hx hs
  cases x <;> simp [Config.allows, hc] at hx <;> rcases h3 with hp | hp <;>
    simp [Listener.step, hp] at hs <;> try subst hs
  all_goals simp_all

/-- C73. Without a poll interval a waiting thread stays asleep until something arrives, a notification comes
without a datagram, or the call fails; with one, it does nothing but go back to `poll`. -/
theorem C73_waiting (l : Listener) (c : Config) (s : NetState) (hw : Waiting s) (x : Label) (s' : NetState)
    (hx : c.allows x = true) (h : l.step s x = some s') :
    (∃ d, x = .arrive d) ∨ x = .pollSpurious ∨ x = .pollError ∨
      (x = .pollTimeout ∧ c.pollinterval ≠ none ∧ s' = s) := by
  obtain ⟨h1, h2⟩ := hw
  cases x <;> simp [Listener.step, h1, h2] at h <;> try simp
  simp only [Config.allows, Bool.and_eq_true] at hx
  refine ⟨?_, h.symm⟩
  intro e
  simp [e] at hx

/-- The default configuration allows everything but timeouts. -/
theorem C73_default (x : Label) : Config.default.allows x = !isTimeout x := by
  cases x <;> rfl

/-! ## C53 -/

/-- C53. A process that has no sockets yet can create an instance with the default configuration: the
operating system only needs one port other than 8000 for the receiving socket.  The receiving socket gets
that port and the sending socket port 8000, both on all interfaces. -/
theorem C53_bind (N : Net) (port : UInt16)
    (hport : N.conflict (.v4 0 0 0 0 8000) (.v4 0 0 0 0 port) = false) (h0 : port ≠ 0) :
    ∃ n, Node.init.step N (.newInstance Config.default (.v4 0 0 0 0 port) (.v4 0 0 0 0 8000)) = some n ∧
      n.sockets.map Prod.snd = [.v4 0 0 0 0 port, .v4 0 0 0 0 8000] := by
  have hc : (Node.init.canBind N Config.default.receivingAddress.sock (.v4 0 0 0 0 port) &&
      Node.init.canBind N Config.default.sendingAddress.sock (.v4 0 0 0 0 8000) &&
      !N.conflict (.v4 0 0 0 0 8000) (.v4 0 0 0 0 port)) = true := by
    simp [Node.canBind, Node.init, Node.sockets, Config.default, hport, resolves, h0]
  simp only [Node.step, hc, if_true]
  exact ⟨_, rfl, by simp [Node.sockets, Node.init]⟩

/-- Is this an IPv4 address that a remote host can have: not "this network" (0/8), loopback (127/8), private
(10/8, 172.16/12, 192.168/16), link-local (169.254/16), multicast or reserved (224/3)? -/
def publicHost (a : Address) : Bool :=
  match a.sock with
  | .v4 a b _ _ port =>
    a != 0 && a != 127 && a != 10 && !(a == 172 && 16 ≤ b && b < 32) && !(a == 192 && b == 168) &&
    !(a == 169 && b == 254) && a < 224 && port != 0
  | .v6 .. => false

/-- C53. Every default bootstrap host is an address that a remote host can have, and there is one. -/
theorem C53_hosts : Config.default.defaultHosts ≠ [] ∧
    ∀ a ∈ Config.default.defaultHosts, publicHost a = true := by
  decide +kernel

/-- How an address is printed. -/
def Spec.text (a : Address) : String :=
  match a.sock with
  | .v4 a b c d port => s!"{a.toNat}.{b.toNat}.{c.toNat}.{d.toNat}:{port.toNat}"
  | .v6 .. => "IPv6"

/-- C53. The default hosts, in order; the sixth repeats the fifth, so there are
13 different ones. -/
theorem C53_list : Config.default.defaultHosts.map Spec.text =
    ["130.161.119.206:6421", "130.161.119.206:6422", "131.180.27.155:6423", "131.180.27.156:6424",
     "131.180.27.161:6427", "131.180.27.161:6427",
     "131.180.27.161:6521", "131.180.27.161:6522", "131.180.27.162:6523", "131.180.27.162:6524",
     "130.161.119.215:6525", "130.161.119.215:6526", "81.171.27.194:6527", "81.171.27.194:6528"] ∧
    (Config.default.defaultHosts.map Spec.text).eraseDups.length = 13 := by
  decide +kernel

/-- The hypotheses are met: an execution with a timeout under one configuration, and the one without under
the default configuration, with a call of a receiver in both. -/
example : ∃ s, exampleListener.run (exampleListener.init [])
    [.pollTimeout, .arrive exampleDatagram, .pollEvent, .recv, .start 1] = some s ∧
    (∀ x ∈ [.pollTimeout, .arrive exampleDatagram, .pollEvent, .recv, .start 1],
      { Config.default with pollinterval := some 100 }.allows x = true) ∧
    callsOf 1 s.trace ≠ [] :=
  ⟨_, rfl, by decide, by simp [callsOf]⟩

example : ∃ s, exampleListener.run (exampleListener.init []) [.arrive exampleDatagram, .pollError] = some s ∧
    ∀ x ∈ [.arrive exampleDatagram, .pollError], { Config.default with queuesize := 0 }.allows x = true :=
  ⟨_, rfl, by decide⟩

/-! ## Cases for the theorems above -/

/-- `C53_bind`: sender on port 9000. -/
example : ∃ n, Node.init.step plainNet (.newInstance Config.default (.v4 0 0 0 0 9000) (.v4 0 0 0 0 8000)) = some n ∧
    n.sockets.map Prod.snd = [.v4 0 0 0 0 9000, .v4 0 0 0 0 8000] :=
  C53_bind plainNet 9000 (by decide) (by decide)

/-- `C73_waiting`: a timeout of a waiting thread. -/
example (s' : NetState) (h : exampleListener.step (exampleListener.init []) .pollTimeout = some s') :
    s' = exampleListener.init [] := by
  rcases C73_waiting exampleListener { Config.default with pollinterval := some 100 } (exampleListener.init []) ⟨rfl, rfl⟩
    .pollTimeout s' (by decide) h with ⟨d, hd⟩ | hd | hd | ⟨-, -, hd⟩
  · cases hd
  · cases hd
  · cases hd
  · exact hd

/-- `C73_zero`: room for no event. -/
example (s : NetState) (h : exampleListener.run (exampleListener.init []) [.arrive exampleDatagram] = some s) :
    s.queue = [exampleDatagram] :=
  (C73_zero exampleListener { Config.default with queuesize := 0 } rfl [] [.arrive exampleDatagram] s h (by decide)).2.1

/-- `C73`: the example listener without a poll interval. -/
example := C73 exampleListener Config.default (by decide) [] exampleRun _ rfl

end Ipv8
