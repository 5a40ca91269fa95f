import Verif.Model.World
import Verif.Props.System
import Verif.Props.Process
/-!
# C62: a network of nodes
-/

namespace Ipv8
open Spec

/-! ## Specification vocabulary -/

/-- What this step puts on the network: destination and datagram. -/
def emitted : WLabel → List (SocketAddr × Datagram)
  | .send sender address packet (.ok _) => [(address.sock, ⟨packet.bytes, sender⟩)]
  | .inject dest d => [(dest, d)]
  | _ => []

/-- Everything sent to `address` in an execution, in order of sending. -/
def sentTo (address : SocketAddr) (ls : List WLabel) : List Datagram :=
  ((ls.flatMap emitted).filter fun x => x.1 = address).map (·.2)

/-- What is under way to `address`. -/
def World.airTo (w : World) (address : SocketAddr) : List Datagram :=
  (w.air.filter fun x => x.1 = address).map (·.2)

/-- The network duplicates nothing in this execution. -/
def NoDuplicates (ls : List WLabel) : Prop := ∀ i, .duplicate i ∉ ls

/-- The network loses nothing in this execution. -/
def NoLoss (ls : List WLabel) : Prop := ∀ i, .lose i ∉ ls

/-! ## The invariant -/

theorem Listener.run_snoc (l : Listener) (s m s' : NetState) (ls : List Label) (x : Label)
    (h : l.run s ls = some m) (hx : l.step m x = some s') : l.run s (ls ++ [x]) = some s' := by
  induction ls generalizing s with
  | nil =>
    simp only [Listener.run, Option.some.injEq] at h
    subst h
    simp [Listener.run, hx]
  | cons y ls ih =>
    simp only [Listener.run, List.cons_append] at h ⊢
    cases hy : l.step s y with
    | none => simp [hy] at h
    | some q => simp only [hy] at h ⊢; exact ih q h

/-- Each node has run on its own; `arr` says what arrived under each address, and for each datagram the
number of arrivals and copies under way relates to the number sent as `R` says. -/
def WorldInv (R : Nat → Nat → Prop) (sent : List (SocketAddr × Datagram)) (w : World) : Prop :=
  w.hosts.Pairwise (fun a b => a.address ≠ b.address) ∧
  ∃ arr : SocketAddr → List Datagram,
    (∀ a, (∀ h ∈ w.hosts, h.address ≠ a) → arr a = []) ∧
    (∀ (k : Nat) (h : Host), w.hosts[k]? = some h → ∃ lk, h.listener.run (h.listener.init []) lk = some h.state ∧
      arrivals lk = arr h.address) ∧
    ∀ a d, R ((arr a).count d + w.air.count (a, d)) (sent.count (a, d))

theorem count_eraseIdx {α : Type} [BEq α] [LawfulBEq α] [DecidableEq α] {l : List α} {i : Nat} {x : α}
    (h : l[i]? = some x) (y : α) : l.count y = (l.eraseIdx i).count y + (if x = y then 1 else 0) := by
  obtain ⟨p, q, e, -, hera, -⟩ := split_at h
  rw [hera, e]
  simp only [List.count_append, List.count_cons, beq_iff_eq]
  omega

theorem pairwise_set_address {hosts : List Host} {k : Nat} {h h' : Host}
    (hp : hosts.Pairwise (fun a b => a.address ≠ b.address)) (hk : hosts[k]? = some h)
    (ha : h'.address = h.address) : (hosts.set k h').Pairwise (fun a b => a.address ≠ b.address) := by
  have : (hosts.set k h').map (·.address) = hosts.map (·.address) := by
    apply List.ext_getElem? 
    intro i
    simp only [List.getElem?_map, List.getElem?_set]
    split
    · next hi =>
      subst hi
      split <;> simp_all
    · rfl
  have hm : (hosts.map (·.address)).Pairwise (· ≠ ·) := List.pairwise_map.mpr hp
  rw [← this] at hm
  exact List.pairwise_map.mp hm

theorem unique_address {hosts : List Host} (hp : hosts.Pairwise (fun a b => a.address ≠ b.address))
    {j k : Nat} {g h : Host} (hj : hosts[j]? = some g) (hk : hosts[k]? = some h)
    (he : g.address = h.address) : j = k := by
  have hm : (hosts.map (·.address)).Nodup := List.pairwise_map.mpr hp
  obtain ⟨hj', rfl⟩ := List.getElem?_eq_some_iff.mp hj
  obtain ⟨hk', rfl⟩ := List.getElem?_eq_some_iff.mp hk
  exact (List.getElem_inj (xs := hosts.map (·.address)) (h₀ := by simpa using hj') (h₁ := by simpa using hk') hm).mp
    (by simpa using he)

theorem worldInv_step (R : Nat → Nat → Prop) (hsucc : ∀ n m, R n m → R (n + 1) (m + 1)) (w w' : World)
    (x : WLabel)
    (hlose : (∃ i, x = .lose i) → ∀ n m, R (n + 1) m → R n m)
    (hdup : (∃ i, x = .duplicate i) → ∀ n m, R (n + 1) m → R (n + 2) m)
    (sent : List (SocketAddr × Datagram)) (h : WorldInv R sent w) (hx : w.step x = some w') :
    WorldInv R (sent ++ emitted x) w' := by
  obtain ⟨hpw, arr, h0, hrun, hR⟩ := h
  have emit : ∀ (y : SocketAddr × Datagram) (a : SocketAddr) (d : Datagram),
      R ((arr a).count d + (w.air ++ [y]).count (a, d)) ((sent ++ [y]).count (a, d)) := by
    intro y a d
    have := hR a d
    simp only [List.count_append, List.count_cons, List.count_nil, beq_iff_eq]
    split
    · have := hsucc _ _ this
      simpa [Nat.add_assoc] using this
    · simpa using this
  cases x with
  | boot address listener =>
    simp only [World.step] at hx
    split at hx
    · next hfree =>
      simp only [Option.some.injEq] at hx
      subst hx
      simp only [List.all_eq_true, bne_iff_ne, ne_eq] at hfree
      refine ⟨?_, arr, ?_, ?_, by simpa [emitted] using hR⟩
      · rw [List.pairwise_append]
        exact ⟨hpw, by simp, by simpa using hfree⟩
      · intro a ha
        exact h0 a (fun h hh => ha h (by simp [hh]))
      · intro k h hk
        simp only at hk
        by_cases hlt : k < w.hosts.length
        · rw [List.getElem?_append_left hlt] at hk
          exact hrun k h hk
        · rw [List.getElem?_append_right (by omega)] at hk
          cases hz : k - w.hosts.length with
          | succ j => simp [hz] at hk
          | zero =>
            simp only [hz, List.getElem?_cons_zero, Option.some.injEq] at hk
            subst hk
            exact ⟨[], rfl, by simpa [arrivals] using (h0 address hfree).symm⟩
    · simp at hx
  | send sender address packet result =>
    simp only [World.step] at hx
    cases result with
    | ok n =>
      simp only at hx
      split at hx
      · simp only [Option.some.injEq] at hx
        subst hx
        exact ⟨hpw, arr, h0, hrun, emit _⟩
      · simp at hx
    | err e =>
      simp only [Option.some.injEq] at hx
      subst hx
      exact ⟨hpw, arr, h0, hrun, by simpa [emitted] using hR⟩
    | panic => simp at hx
  | inject dest d =>
    simp only [World.step, Option.some.injEq] at hx
    subst hx
    exact ⟨hpw, arr, h0, hrun, emit _⟩
  | lose i =>
    simp only [World.step, Option.some.injEq] at hx
    subst hx
    refine ⟨hpw, arr, h0, hrun, ?_⟩
    intro a d
    have := hR a d
    simp only [emitted, List.append_nil]
    cases hi : w.air[i]? with
    | none =>
      rw [List.eraseIdx_of_length_le (List.getElem?_eq_none_iff.mp hi)]
      exact this
    | some y =>
      rw [count_eraseIdx hi] at this
      split at this
      · exact hlose ⟨i, rfl⟩ _ _ this
      · exact this
  | duplicate i =>
    simp only [World.step] at hx
    split at hx
    · next y hi =>
      simp only [Option.some.injEq] at hx
      subst hx
      refine ⟨hpw, arr, h0, hrun, ?_⟩
      intro a d
      have := hR a d
      simp only [emitted, List.append_nil, List.count_append, List.count_cons, List.count_nil, beq_iff_eq]
      split
      · next he =>
        have hc := count_eraseIdx hi (a, d)
        rw [if_pos he] at hc
        rw [hc, ← Nat.add_assoc] at this
        have := hdup ⟨i, rfl⟩ _ _ this
        rw [hc]
        simpa [Nat.add_assoc] using this
      · simpa using this
    · simp at hx
  | deliver i k =>
    simp only [World.step] at hx
    split at hx
    · next dest d h hi hk =>
      split at hx
      · next he =>
        simp only [Listener.step, Option.some.injEq] at hx
        subst hx
        subst he
        refine ⟨pairwise_set_address hpw hk rfl, fun a => if a = h.address then arr a ++ [d] else arr a, ?_, ?_, ?_⟩
        · intro a ha
          have hne : ¬ a = h.address := by
            intro e
            exact ha ⟨h.address, h.listener, { h.state with queue := h.state.queue ++ [d], ready := true }⟩
              (List.mem_of_getElem? (i := k) (by simp [(List.getElem?_eq_some_iff.mp hk).1])) e.symm
          simp only [hne, if_false]
          refine h0 a (fun g hg => ?_)
          obtain ⟨j, hj⟩ := List.getElem?_of_mem hg
          by_cases hjk : k = j
          · subst hjk
            rw [hk] at hj
            cases hj
            exact fun e => hne e.symm
          · exact ha g (List.mem_of_getElem? (i := j) (by simp [hjk, hj]))
        · intro j g hj
          simp only at hj
          by_cases hjk : k = j
          · subst hjk
            simp only [(List.getElem?_eq_some_iff.mp hk).1, List.getElem?_set_self, Option.some.injEq] at hj
            subst hj
            obtain ⟨lk, h1, h2⟩ := hrun k h hk
            refine ⟨lk ++ [.arrive d], Listener.run_snoc _ _ _ _ _ _ h1 rfl, ?_⟩
            simp [arrivals_append, arrivals, h2]
          · rw [List.getElem?_set_ne hjk] at hj
            obtain ⟨lk, h1, h2⟩ := hrun j g hj
            have : g.address ≠ h.address := fun e => hjk (unique_address hpw hk hj e.symm)
            exact ⟨lk, h1, by simp [this, h2]⟩
        · intro a d'
          have := hR a d'
          simp only [emitted, List.append_nil]
          rw [count_eraseIdx hi] at this
          by_cases ha : a = h.address
          · subst ha
            simp only [if_true, List.count_append, List.count_cons, List.count_nil, beq_iff_eq]
            simp only [Prod.mk.injEq, true_and] at this
            split at this
            · next hd => simpa [hd, Nat.add_assoc, Nat.add_comm 1] using this
            · next hd => simpa [hd] using this
          · simp only [ha, if_false]
            rw [if_neg (by simp only [Prod.mk.injEq]; exact fun e => ha e.1.symm)] at this
            simpa using this
      · simp at hx
    · simp at hx
  | «at» k x =>
    simp only [World.step] at hx
    split at hx
    · simp at hx
    · next h hk =>
      split at hx
      · simp at hx
      · next hna =>
        split at hx
        · next s' hs =>
          simp only [Option.some.injEq] at hx
          subst hx
          refine ⟨pairwise_set_address hpw hk rfl, arr, ?_, ?_, by simpa [emitted] using hR⟩
          · intro a ha
            refine h0 a (fun g hg => ?_)
            obtain ⟨j, hj⟩ := List.getElem?_of_mem hg
            by_cases hjk : k = j
            · subst hjk
              rw [hk] at hj
              cases hj
              exact ha ⟨h.address, h.listener, s'⟩ (List.mem_of_getElem? (i := k)
                (by simp [(List.getElem?_eq_some_iff.mp hk).1]))
            · exact ha g (List.mem_of_getElem? (i := j) (by simp [hjk, hj]))
          · intro j g hj
            simp only at hj
            by_cases hjk : k = j
            · subst hjk
              simp only [(List.getElem?_eq_some_iff.mp hk).1, List.getElem?_set_self, Option.some.injEq] at hj
              subst hj
              obtain ⟨lk, h1, h2⟩ := hrun k h hk
              refine ⟨lk ++ [x], Listener.run_snoc _ _ _ _ _ _ h1 hs, ?_⟩
              cases x <;> simp_all [arrivals_append, arrivals, Label.isArrival]
            · rw [List.getElem?_set_ne hjk] at hj
              exact hrun j g hj
        · simp at hx

theorem worldInv_run (R : Nat → Nat → Prop) (hzero : R 0 0) (hsucc : ∀ n m, R n m → R (n + 1) (m + 1))
    (ls : List WLabel) (hlose : (∃ i, .lose i ∈ ls) → ∀ n m, R (n + 1) m → R n m)
    (hdup : (∃ i, .duplicate i ∈ ls) → ∀ n m, R (n + 1) m → R (n + 2) m)
    (w : World) (h : World.init.run ls = some w) : WorldInv R (ls.flatMap emitted) w := by
  suffices hk : ∀ (ls : List WLabel) (w w' : World) (sent : List (SocketAddr × Datagram)),
      ((∃ i, .lose i ∈ ls) → ∀ n m, R (n + 1) m → R n m) →
      ((∃ i, .duplicate i ∈ ls) → ∀ n m, R (n + 1) m → R (n + 2) m) →
      WorldInv R sent w → w.run ls = some w' → WorldInv R (sent ++ ls.flatMap emitted) w' by
    have := hk ls World.init w [] hlose hdup ?_ h
    · simpa using this
    · exact ⟨by simp [World.init], fun _ => [], by simp, by simp [World.init],
        fun _ _ => by simpa [World.init] using hzero⟩
  clear h hlose hdup w ls
  intro ls
  induction ls with
  | nil =>
    intro w w' sent _ _ hw h
    simp only [World.run, Option.some.injEq] at h
    subst h
    simpa using hw
  | cons x ls ih =>
    intro w w' sent hlose hdup hw h
    simp only [World.run] at h
    cases hx : w.step x with
    | none => simp [hx] at h
    | some q =>
      simp only [hx] at h
      have h1 := worldInv_step R hsucc w q x
        (fun ⟨i, e⟩ => hlose ⟨i, by simp [e]⟩) (fun ⟨i, e⟩ => hdup ⟨i, by simp [e]⟩) sent hw hx
      have h2 := ih q w' (sent ++ emitted x) (fun ⟨i, e⟩ => hlose ⟨i, by simp [e]⟩)
        (fun ⟨i, e⟩ => hdup ⟨i, by simp [e]⟩) h1 h
      simpa using h2

/-! ## From counts to permutations -/

theorem perm_of_count_le {α : Type} [BEq α] [LawfulBEq α] (a b : List α)
    (h : ∀ x, a.count x ≤ b.count x) : ∃ rest, b.Perm (a ++ rest) := by
  induction a generalizing b with
  | nil => exact ⟨b, by simp⟩
  | cons y a ih =>
    have hy : y ∈ b := by
      have := h y
      simp only [List.count_cons_self] at this
      exact List.count_pos_iff.mp (by omega)
    have hp := List.perm_cons_erase hy
    obtain ⟨rest, hr⟩ := ih (b.erase y) (fun x => by
      have h1 := h x
      rw [hp.count_eq x] at h1
      simp only [List.count_cons] at h1
      omega)
    exact ⟨rest, hp.trans (by simpa using hr.cons y)⟩

theorem count_sentTo (address : SocketAddr) (ls : List WLabel) (d : Datagram) :
    (sentTo address ls).count d = (ls.flatMap emitted).count (address, d) := by
  simp only [sentTo]
  induction ls.flatMap emitted with
  | nil => rfl
  | cons x l ih =>
    obtain ⟨a, e⟩ := x
    by_cases ha : a = address
    · subst ha
      simp only [List.filter_cons, decide_true, if_true, List.map_cons, List.count_cons, ih]
      simp
    · simp [ha, ih]

theorem count_airTo (w : World) (address : SocketAddr) (d : Datagram) :
    (w.airTo address).count d = w.air.count (address, d) := by
  simp only [World.airTo]
  induction w.air with
  | nil => rfl
  | cons x l ih =>
    obtain ⟨a, e⟩ := x
    by_cases ha : a = address
    · subst ha
      simp only [List.filter_cons, decide_true, if_true, List.map_cons, List.count_cons, ih]
      simp
    · simp [ha, ih]

/-- A receiver's calls are the first of the datagrams that arrived, in order. -/
theorem calls_prefix (l : Listener) (ls : List Label) (s : NetState) (h : l.run (l.init []) ls = some s)
    (r : Nat) : callsOf r s.trace <+: (arrivals ls).map (received l.buffersize) := by
  obtain ⟨handled, h1, h2, -⟩ := C43 l [] ls s h
  obtain ⟨h3, h4⟩ := C43_always l [] ls s h
  have hpre : takenIn s.trace <+: (arrivals ls).map (received l.buffersize) := by
    rw [h2]
    simp only [List.nil_append] at h1
    rw [h1, List.map_append]
    exact List.prefix_append _ _
  by_cases hr : r < l.receivers.length
  · rcases h3 r hr with e | ⟨cur, e⟩
    · rw [e]; exact hpre
    · exact (List.prefix_append _ _).trans (e ▸ hpre)
  · rw [h4 r (by omega)]
    exact List.nil_prefix

/-! ## C62 -/

/-- **C62, nothing from nothing.**  In every state of every execution of a network of nodes, with any loss,
duplication, delay, reordering and foreign traffic: whatever a receiver of a node was called with is a
datagram that was sent to that node before, cut to its buffer, and the source address of that datagram. -/
theorem C62 (ls : List WLabel) (w : World) (h : World.init.run ls = some w) (k : Nat) (host : Host)
    (hk : w.hosts[k]? = some host) (r : Nat) (p : Packet) (a : Address)
    (hc : (p, a) ∈ callsOf r host.state.trace) :
    ∃ d ∈ sentTo host.address ls, (p, a) = received host.listener.buffersize d := by
  obtain ⟨-, arr, -, hrun, hR⟩ := worldInv_run (fun n m => m = 0 → n = 0) (by simp)
    (by intro n m _ h; omega) ls (by intro _ n m h h0; have := h h0; omega)
    (by intro _ n m h h0; have := h h0; omega) w h
  obtain ⟨lk, h1, h2⟩ := hrun k host hk
  have hmem := (calls_prefix _ _ _ h1 r).subset hc
  obtain ⟨d, hd, he⟩ := List.mem_map.mp hmem
  refine ⟨d, ?_, he.symm⟩
  refine List.count_pos_iff.mp ?_
  rw [count_sentTo]
  refine Nat.pos_of_ne_zero fun h0 => ?_
  have := hR host.address d h0
  have hpos := List.count_pos_iff.mpr (h2 ▸ hd)
  omega

/-- In a run, a `send` that returns `Ok` returns the length of the packet. -/
theorem World.run_sent : ∀ (ls : List WLabel) (w w' : World), w.run ls = some w' → ∀ sender address packet n,
    .send sender address packet (.ok n) ∈ ls → n = packet.bytes.length
  | [], _, _, _, _, _, _, _, hm => by cases hm
  | x :: ls, w, w', h, sender, address, packet, n, hm => by
    simp only [World.run] at h
    cases hs : w.step x with
    | none => rw [hs] at h; cases h
    | some w1 =>
      rw [hs] at h
      rcases List.mem_cons.mp hm with hm | hm
      · subst hm
        simp only [World.step] at hs
        split at hs
        · assumption
        · cases hs
      · exact World.run_sent ls w1 w' h sender address packet n hm

/-- **C62, senders.**  If nobody but this library sends, every call of a receiver comes from a successful
`NetworkSender::send` to its node, which returned the length of the packet, and the address it is given is the one of
the sending socket. -/
theorem C62_sender (ls : List WLabel) (w : World) (h : World.init.run ls = some w)
    (hnone : ∀ dest d, .inject dest d ∉ ls) (k : Nat) (host : Host)
    (hk : w.hosts[k]? = some host) (r : Nat) (p : Packet) (a : Address)
    (hc : (p, a) ∈ callsOf r host.state.trace) :
    ∃ sender packet, .send sender ⟨host.address⟩ packet (.ok packet.bytes.length) ∈ ls ∧ a = ⟨sender⟩ ∧
      p.bytes = packet.bytes.take host.listener.buffersize := by
  obtain ⟨d, hd, he⟩ := C62 ls w h k host hk r p a hc
  simp only [sentTo, List.mem_map, List.mem_filter, List.mem_flatMap] at hd
  obtain ⟨⟨dest, d'⟩, ⟨⟨x, hx, hem⟩, hdest⟩, rfl⟩ := hd
  simp only [received, Prod.mk.injEq, decide_eq_true_eq] at he hdest
  subst hdest
  cases x with
  | send sender address packet result =>
    cases result with
    | ok n =>
      simp only [emitted, List.mem_singleton, Prod.mk.injEq] at hem
      obtain ⟨e1, rfl⟩ := hem
      refine ⟨sender, packet, ?_, he.2, by rw [he.1]⟩
      have hn := World.run_sent ls _ _ h sender address packet n hx
      subst hn
      have : (⟨host.address⟩ : Address) = address := by cases address; simp_all
      rw [this]; exact hx
    | err e => simp [emitted] at hem
    | panic => simp [emitted] at hem
  | inject dest d => exact absurd hx (hnone dest d)
  | boot => simp [emitted] at hem
  | lose => simp [emitted] at hem
  | duplicate => simp [emitted] at hem
  | deliver => simp [emitted] at hem
  | «at» => simp [emitted] at hem

/-- **C62, at most once.**  If the network duplicates nothing, each receiver is called at most once for each
datagram sent: its calls are some of the datagrams sent to the node. -/
theorem C62_once (ls : List WLabel) (w : World) (h : World.init.run ls = some w) (hnd : NoDuplicates ls)
    (k : Nat) (host : Host) (hk : w.hosts[k]? = some host) (r : Nat) :
    ∃ rest, ((sentTo host.address ls).map (received host.listener.buffersize)).Perm
      (callsOf r host.state.trace ++ rest) := by
  obtain ⟨-, arr, -, hrun, hR⟩ := worldInv_run (fun n m => n ≤ m) (by simp)
    (by intro n m h; omega) ls (by intro _ n m h; omega)
    (by rintro ⟨i, hi⟩; exact absurd hi (hnd i)) w h
  obtain ⟨lk, h1, h2⟩ := hrun k host hk
  obtain ⟨rest, hr⟩ := perm_of_count_le (arrivals lk) (sentTo host.address ls) (fun d => by
    have := hR host.address d
    rw [count_sentTo, h2]
    omega)
  obtain ⟨more, hm⟩ := calls_prefix _ _ _ h1 r
  refine ⟨more ++ rest.map (received host.listener.buffersize), ?_⟩
  rw [← List.append_assoc, hm, ← List.map_append]
  exact hr.map _

/-- **C62, exactly once.**  If the network neither loses nor duplicates, the datagrams sent to a node are at
every time those under way, those in its socket's queue and those taken from it, each once; and whenever
the listening thread is between two datagrams, every receiver has been called exactly with the latter. -/
theorem C62_exact (ls : List WLabel) (w : World) (h : World.init.run ls = some w) (hnd : NoDuplicates ls)
    (hnl : NoLoss ls) (k : Nat) (host : Host) (hk : w.hosts[k]? = some host) :
    ∃ handled, (sentTo host.address ls).Perm (handled ++ host.state.queue ++ w.airTo host.address) ∧
      takenIn host.state.trace = handled.map (received host.listener.buffersize) ∧
      (idle host.state.phase = true → ∀ r, r < host.listener.receivers.length →
        callsOf r host.state.trace = handled.map (received host.listener.buffersize)) := by
  obtain ⟨-, arr, -, hrun, hR⟩ := worldInv_run (fun n m => n = m) (by simp)
    (by intro n m h; omega) ls (by rintro ⟨i, hi⟩; exact absurd hi (hnl i))
    (by rintro ⟨i, hi⟩; exact absurd hi (hnd i)) w h
  obtain ⟨lk, h1, h2⟩ := hrun k host hk
  obtain ⟨handled, g1, g2, g3⟩ := C43 _ _ _ _ h1
  refine ⟨handled, ?_, g2, g3⟩
  rw [← g1, List.nil_append]
  refine List.perm_iff_count.mpr fun d => ?_
  have := hR host.address d
  rw [count_sentTo, List.count_append, count_airTo, h2]
  omega

/-- **C62, communities.**  A community of a node that forwards into its registry is called only for a
datagram that was sent to that node, starts with the header for that community's mid, and has a type that
is not reserved; it gets that header, the datagram (cut to the buffer) and its source. -/
theorem C62_community (ls : List WLabel) (w : World) (h : World.init.run ls = some w) (k : Nat)
    (host : Host) (hk : w.hosts[k]? = some host) (cs : List Community) (n : Nat)
    (hnode : host.listener = node cs n) (call : Call)
    (hc : call ∈ host.listener.communityCalls host.state.trace) :
    ∃ d ∈ sentTo host.address ls, ∃ mid t c,
      HasHeader ⟨d.bytes.take n⟩ mid t ∧ reserved t = false ∧ lastWith mid cs = some c ∧
      call.community = c.id ∧ call.deserializer = ⟨⟨d.bytes.take n⟩, 0⟩ ∧ call.address = ⟨d.source⟩ ∧
      call.header = Header.ofMid mid t := by
  simp only [Listener.communityCalls, List.mem_flatMap] at hc
  obtain ⟨e, he, hc⟩ := hc
  cases e with
  | taken => simp at hc
  | ret => simp at hc
  | call r p a =>
    have hmem : (p, a) ∈ callsOf r host.state.trace := by
      generalize host.state.trace = t at he
      induction t with
      | nil => simp at he
      | cons e t ih =>
        rcases List.mem_cons.mp he with rfl | he'
        · simp [callsOf]
        · cases e with
          | taken => simpa [callsOf] using ih he'
          | ret => simpa [callsOf] using ih he'
          | call r' p' a' =>
            simp only [callsOf]
            split
            · exact List.mem_cons_of_mem _ (ih he')
            · exact ih he'
    obtain ⟨d, hd, hre⟩ := C62 ls w h k host hk r p a hmem
    refine ⟨d, hd, ?_⟩
    rw [hnode] at hc hre
    simp only [received, node, Prod.mk.injEq] at hre
    obtain ⟨rfl, rfl⟩ := hre
    cases r with
    | succ r => simp [node] at hc
    | zero =>
      simp only [node, List.getElem?_cons_zero, registryReceiver] at hc
      rcases hasHeader_or ⟨d.bytes.take n⟩ with ⟨mid, t, hh⟩ | ⟨e, he⟩
      · rw [forward_eq cs ⟨d.bytes.take n⟩ ⟨d.source⟩ mid t hh] at hc
        cases hl : lastWith mid cs with
        | none => simp [hl] at hc
        | some c =>
          simp only [hl] at hc
          split at hc
          · simp at hc
          · next ht =>
            simp only [List.mem_singleton] at hc
            subst hc
            exact ⟨mid, t, c, hh, by simpa using ht, hl, rfl, rfl, rfl, rfl⟩
      · simp [CommunityRegistry.forwardMessage, CommunityRegistry.forwardLogged, he] at hc

/-! ## Cases for the theorems above -/

/-- A packet is sent to a node, arrives and is handled. -/
def exampleTransfer : List WLabel :=
  [.boot (.v4 9 9 9 9 9) exampleListener, .send (.v4 1 2 3 4 5) ⟨.v4 9 9 9 9 9⟩ ⟨[1, 2, 3, 4, 5]⟩ (.ok 5), .deliver 0 0,
   .at 0 .pollEvent, .at 0 .recv, .at 0 (.start 1), .at 0 (.start 0), .at 0 (.finish 0), .at 0 (.finish 1), .at 0 .join]

/-- `C62_exact`, `C62_once` and `C62_sender`: that transfer. -/
example (w : World) (h : World.init.run exampleTransfer = some w) (host : Host) (hk : w.hosts[0]? = some host) :
    (∃ handled : List Datagram, takenIn host.state.trace = handled.map (received host.listener.buffersize)) ∧
    (∃ rest, ((sentTo host.address exampleTransfer).map (received host.listener.buffersize)).Perm
      (callsOf 1 host.state.trace ++ rest)) ∧
    ∃ sender packet, .send sender ⟨host.address⟩ packet (.ok packet.bytes.length) ∈ exampleTransfer ∧
      (⟨.v4 1 2 3 4 5⟩ : Address) = ⟨sender⟩ := by
  have hnd : NoDuplicates exampleTransfer := by simp [NoDuplicates, exampleTransfer]
  have hnl : NoLoss exampleTransfer := by simp [NoLoss, exampleTransfer]
  have hin : ∀ dest d, .inject dest d ∉ exampleTransfer := by simp [exampleTransfer]
  obtain ⟨handled, -, h1, -⟩ := C62_exact _ _ h hnd hnl 0 host hk
  have hc : (⟨[1, 2, 3, 4]⟩, ⟨.v4 1 2 3 4 5⟩) ∈ callsOf 1 host.state.trace := by
    cases h
    cases hk
    exact List.mem_singleton.mpr rfl
  obtain ⟨sender, packet, h2, h3, -⟩ := C62_sender _ _ h hin 0 host hk 1 _ _ hc
  exact ⟨⟨handled, h1⟩, C62_once _ _ h hnd 0 host hk 1, sender, packet, h2, h3⟩

/-- `C62`: the calls of `exampleTransfer`. -/
example (w : World) (h : World.init.run exampleTransfer = some w) (host : Host) (hk : w.hosts[0]? = some host) (p : Packet)
    (a : Address) (hc : (p, a) ∈ callsOf 1 host.state.trace) := C62 exampleTransfer w h 0 host hk 1 p a hc

end Ipv8
