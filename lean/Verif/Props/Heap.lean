import Verif.Model.Heap
import Verif.Props.Pool
/-!
# C95: the memory of a listening node does not grow with the traffic
-/

namespace Ipv8

open Spec

/-! ## Specification -/

/-- What a listening thread has to have in memory at this point: its buffer; while a packet is being handed out also
that packet, and one copy for every receiver running; nothing once the thread is gone. -/
def NetState.needs (s : NetState) : Nat :=
  match s.phase with
  | .polling => s.buffer.length
  | .handling _ => s.buffer.length
  | .dispatch _ p _ _ running _ => s.buffer.length + p.bytes.length + running.length * p.bytes.length
  | .stopped _ => 0

/-- The size of what the receivers kept: for every call that ended, the packet it was about (the last one taken from the
socket), if the receiver keeps that one. -/
def keptIn (keeps : Keeps) : Option (Packet × Address) → List Ev → Nat
  | _, [] => 0
  | _, .taken p a :: t => keptIn keeps (some (p, a)) t
  | c, .call _ _ _ :: t => keptIn keeps c t
  | none, .ret _ :: t => keptIn keeps none t
  | some (p, a), .ret r :: t => (if keeps r p a then p.bytes.length else 0) + keptIn keeps (some (p, a)) t

/-- The sizes of all packets taken from the socket. -/
def takenSize (t : List Ev) : Nat := ((takenIn t).map fun x => x.1.bytes.length).sum

/-- The sizes of all packets handed to a receiver. -/
def calledSize : List Ev → Nat
  | [] => 0
  | .call _ p _ :: t => p.bytes.length + calledSize t
  | _ :: t => calledSize t

/-! ## Proof -/

/-- The last packet taken. -/
def lastTaken : Option (Packet × Address) → List Ev → Option (Packet × Address)
  | c, [] => c
  | _, .taken p a :: t => lastTaken (some (p, a)) t
  | c, .call _ _ _ :: t => lastTaken c t
  | c, .ret _ :: t => lastTaken c t

theorem lastTaken_append : ∀ (t u : List Ev) c, lastTaken c (t ++ u) = lastTaken (lastTaken c t) u
  | [], _, _ => rfl
  | .taken _ _ :: t, u, _ => lastTaken_append t u _
  | .call _ _ _ :: t, u, _ => lastTaken_append t u _
  | .ret _ :: t, u, _ => lastTaken_append t u _

theorem keptIn_append (keeps : Keeps) : ∀ (t u : List Ev) c,
    keptIn keeps c (t ++ u) = keptIn keeps c t + keptIn keeps (lastTaken c t) u
  | [], u, c => by cases c <;> simp [keptIn, lastTaken]
  | .taken p a :: t, u, c => by
    cases c <;> exact keptIn_append keeps t u _
  | .call _ _ _ :: t, u, c => by
    cases c <;> exact keptIn_append keeps t u _
  | .ret r :: t, u, none => keptIn_append keeps t u none
  | .ret r :: t, u, some (p, a) => by
    have := keptIn_append keeps t u (some (p, a))
    simp only [List.cons_append, keptIn, lastTaken, this, Nat.add_assoc]

theorem takenSize_snoc (t : List Ev) (p : Packet) (a : Address) :
    takenSize (t ++ [.taken p a]) = takenSize t + p.bytes.length := by
  have : ∀ t : List Ev, takenIn (t ++ [.taken p a]) = takenIn t ++ [(p, a)] := by
    intro t
    induction t with
    | nil => rfl
    | cons e t ih => cases e <;> simp [takenIn, ih]
  simp [takenSize, this]

theorem takenIn_snoc_call (t : List Ev) (r : Nat) (p : Packet) (a : Address) :
    takenIn (t ++ [.call r p a]) = takenIn t := by
  induction t with
  | nil => rfl
  | cons e t ih => cases e <;> simp [takenIn, ih]

theorem takenIn_snoc_ret (t : List Ev) (r : Nat) : takenIn (t ++ [.ret r]) = takenIn t := by
  induction t with
  | nil => rfl
  | cons e t ih => cases e <;> simp [takenIn, ih]

theorem calledSize_append (t u : List Ev) : calledSize (t ++ u) = calledSize t + calledSize u := by
  induction t with
  | nil => simp [calledSize]
  | cons e t ih => cases e <;> simp [calledSize, ih, Nat.add_assoc]

/-- The invariant. -/
structure HeapInv (l : Listener) (keeps : Keeps) (s : NetState) (h : NodeHeap) : Prop where
  buffer : s.buffer.length = l.buffersize
  live : h.live = s.needs + keptIn keeps none s.trace
  peak : h.peak ≤ l.buffersize * (2 + max 1 l.receivers.length) + keptIn keeps none s.trace
  total : h.total = l.buffersize + 2 * takenSize s.trace + calledSize s.trace
  phase : match s.phase with
    | .dispatch _ p a todo running _ => lastTaken none s.trace = some (p, a) ∧ p.bytes.length ≤ l.buffersize ∧
        todo.length + running.length ≤ l.receivers.length ∧
        calledSize s.trace + todo.length * p.bytes.length ≤ l.receivers.length * takenSize s.trace
    | _ => calledSize s.trace ≤ l.receivers.length * takenSize s.trace

theorem heapInv_init (l : Listener) (keeps : Keeps) (queued : List Datagram) :
    HeapInv l keeps (l.init queued) l.heapInit where
  buffer := by simp [Listener.init]
  live := by simp [Listener.init, Listener.heapInit, NodeHeap.alloc, NetState.needs, keptIn]
  peak := by
    simp only [Listener.init, Listener.heapInit, NodeHeap.alloc, keptIn]
    have : l.buffersize * 1 ≤ l.buffersize * (2 + max 1 l.receivers.length) := Nat.mul_le_mul_left _ (by omega)
    omega
  total := by simp [Listener.init, Listener.heapInit, NodeHeap.alloc, takenSize, takenIn, calledSize]
  phase := by simp [Listener.init, takenSize, takenIn, calledSize]

theorem le_three (b n : Nat) : b + b + b ≤ b * (2 + max 1 n) := by
  have : b * 3 ≤ b * (2 + max 1 n) := Nat.mul_le_mul_left _ (by omega)
  omega

theorem heapInv_ret (l : Listener) (keeps : Keeps) (s : NetState) (h : NodeHeap) (hb : s.buffer.length = l.buffersize)
    (hl : h.live = s.needs + keptIn keeps none s.trace)
    (hp : h.peak ≤ l.buffersize * (2 + max 1 l.receivers.length) + keptIn keeps none s.trace)
    (ht : h.total = l.buffersize + 2 * takenSize s.trace + calledSize s.trace)
    (hph : match s.phase with
    | .dispatch _ p a todo running _ => lastTaken none s.trace = some (p, a) ∧ p.bytes.length ≤ l.buffersize ∧
        todo.length + running.length ≤ l.receivers.length ∧
        calledSize s.trace + todo.length * p.bytes.length ≤ l.receivers.length * takenSize s.trace
    | _ => calledSize s.trace ≤ l.receivers.length * takenSize s.trace)
    (k : Nat) (p : Packet) (a : Address) (todo running : List Nat) (panicked panicked' : Bool)
    (e1 : s.phase = .dispatch k p a todo running panicked) (r : Nat) (hr : r ∈ running) :
    HeapInv l keeps { s with
          phase := .dispatch k p a todo (running.erase r) panicked'
          trace := s.trace ++ [.ret r] } (if keeps r p a then h else h.free p.bytes.length) := by
  simp only [e1] at hph
  obtain ⟨c1, c2, c3, c4⟩ := hph
  have hpos := List.length_pos_of_mem hr
  have her := List.length_erase_of_mem hr
  have hkept : keptIn keeps none (s.trace ++ [.ret r]) =
      keptIn keeps none s.trace + (if keeps r p a then p.bytes.length else 0) := by
    rw [keptIn_append, c1]
    simp [keptIn]
  have hmul : running.length * p.bytes.length = (running.length - 1) * p.bytes.length + p.bytes.length := by
    obtain ⟨m, hm⟩ : ∃ m, running.length = m + 1 := ⟨running.length - 1, by omega⟩
    rw [hm, Nat.add_sub_cancel, Nat.add_mul, Nat.one_mul]
  have hts : takenSize (s.trace ++ [.ret r]) = takenSize s.trace := by simp only [takenSize, takenIn_snoc_ret]
  refine ⟨hb, ?_, ?_, ?_, ?_⟩
  · simp only [NetState.needs, e1] at hl
    simp only [NetState.needs, hkept, her]
    split <;> (try simp only [NodeHeap.free]) <;> omega
  · rw [hkept]
    split <;> (try simp only [NodeHeap.free]) <;> omega
  · simp only [hts, calledSize_append, calledSize]
    split <;> (try simp only [NodeHeap.free]) <;> omega
  · simp only [hts, calledSize_append, calledSize, lastTaken_append, lastTaken, c1, her, true_and]
    refine ⟨c2, by omega, by omega⟩

theorem heapInv_step (l : Listener) (keeps : Keeps) (s s' : NetState) (h : NodeHeap) (x : Label)
    (hi : HeapInv l keeps s h) (hx : l.step s x = some s') : HeapInv l keeps s' (Listener.memory keeps s h x) := by
  obtain ⟨hb, hl, hp, ht, hph⟩ := hi
  cases x with
  | arrive d =>
    simp only [Listener.step, Option.some.injEq] at hx
    subst hx
    exact ⟨hb, hl, hp, ht, hph⟩
  | pollEvent =>
    simp only [Listener.step] at hx
    split at hx
    · rename_i e1 e2
      cases hx
      refine ⟨hb, ?_, hp, ht, ?_⟩
      · simpa only [NetState.needs, e1, Listener.memory] using hl
      · simpa only [e1] using hph
    · cases hx
  | pollTimeout =>
    simp only [Listener.step] at hx
    split at hx
    · cases hx
      exact ⟨hb, hl, hp, ht, hph⟩
    · cases hx
  | pollSpurious =>
    simp only [Listener.step] at hx
    split at hx
    · rename_i e1
      cases hx
      refine ⟨hb, ?_, hp, ht, ?_⟩
      · simpa only [NetState.needs, e1, Listener.memory] using hl
      · simpa only [e1] using hph
    · cases hx
  | pollError =>
    simp only [Listener.step] at hx
    split at hx
    · rename_i e1
      cases hx
      refine ⟨hb, ?_, hp, ht, ?_⟩
      · simp only [NetState.needs, e1, Listener.memory, NodeHeap.free] at hl ⊢
        omega
      · simpa only [e1] using hph
    · cases hx
  | recvError =>
    simp only [Listener.step] at hx
    split at hx
    · rename_i e1
      cases hx
      refine ⟨hb, ?_, hp, ht, ?_⟩
      · simp only [NetState.needs, e1, Listener.memory, NodeHeap.free] at hl ⊢
        omega
      · simpa only [e1] using hph
    · cases hx
  | recv =>
    simp only [Listener.step] at hx
    split at hx
    · rename_i k e1
      split at hx
      · rename_i e2
        cases hx
        refine ⟨hb, ?_, by simpa only [Listener.memory, e2, NodeHeap.free] using hp,
          by simpa only [Listener.memory, e2, NodeHeap.free] using ht, ?_⟩
        · simp only [NetState.needs, e1, e2, Listener.memory, NodeHeap.free] at hl ⊢
          omega
        · simpa only [e1] using hph
      · rename_i d q e2
        cases hx
        have hn : ((recvInto s.buffer d.bytes).2.take (recvInto s.buffer d.bytes).1).length =
            min d.bytes.length s.buffer.length := by
          rw [cut_eq, List.length_take, Nat.min_comm]
        have hlen := recvInto_length s.buffer d.bytes
        have h3 := le_three l.buffersize l.receivers.length
        have hmin : min d.bytes.length s.buffer.length ≤ l.buffersize := hb ▸ Nat.min_le_right _ _
        have hkept : ∀ p a, keptIn keeps none (s.trace ++ [.taken p a]) = keptIn keeps none s.trace := by
          intro p a
          rw [keptIn_append]
          cases lastTaken none s.trace <;> simp [keptIn]
        refine ⟨by rw [hlen]; exact hb, ?_, ?_, ?_, ?_⟩
        · simp only [NetState.needs, e1, e2, Listener.memory, NodeHeap.free, NodeHeap.alloc, hn, hlen, hkept,
            List.length_nil, Nat.zero_mul] at hl ⊢
          omega
        · simp only [NetState.needs, e1, e2, Listener.memory, NodeHeap.free, NodeHeap.alloc, hkept] at hl hp ⊢
          omega
        · simp only [e2, Listener.memory, NodeHeap.free, NodeHeap.alloc, takenSize_snoc, calledSize_append, calledSize,
            hn] at ht ⊢
          omega
        · simp only [e1, takenSize_snoc, calledSize_append, calledSize, hn, List.length_range, List.length_nil,
            lastTaken_append, lastTaken, true_and, Nat.mul_add] at hph ⊢
          omega
    · cases hx
  | start r =>
    simp only [Listener.step] at hx
    split at hx
    · rename_i k p a todo running panicked e1
      split at hx
      · rename_i hr
        cases hx
        simp only [e1] at hph
        obtain ⟨c1, c2, c3, c4⟩ := hph
        have hpos := List.length_pos_of_mem hr
        have her := List.length_erase_of_mem hr
        have hkept : keptIn keeps none (s.trace ++ [.call r p a]) = keptIn keeps none s.trace := by
          rw [keptIn_append]
          cases lastTaken none s.trace <;> simp [keptIn]
        have hmul : todo.length * p.bytes.length = (todo.length - 1) * p.bytes.length + p.bytes.length := by
          obtain ⟨m, hm⟩ : ∃ m, todo.length = m + 1 := ⟨todo.length - 1, by omega⟩
          rw [hm, Nat.add_sub_cancel, Nat.add_mul, Nat.one_mul]
        have hmem : Listener.memory keeps s h (.start r) = h.alloc p.bytes.length := by
          simp only [Listener.memory, e1]
        rw [hmem]
        refine ⟨hb, ?_, ?_, ?_, ?_⟩
        · simp only [NetState.needs, e1, NodeHeap.alloc, hkept, List.length_cons, Nat.add_mul, Nat.one_mul] at hl ⊢
          omega
        · simp only [NetState.needs, e1, NodeHeap.alloc, hkept] at hl hp ⊢
          have g1 : (running.length + 1) * p.bytes.length ≤ l.receivers.length * l.buffersize :=
            Nat.mul_le_mul (by omega) c2
          have g2 : l.buffersize * (2 + l.receivers.length) ≤ l.buffersize * (2 + max 1 l.receivers.length) :=
            Nat.mul_le_mul_left _ (by omega)
          rw [Nat.mul_add, Nat.mul_comm l.buffersize l.receivers.length] at g2
          rw [Nat.add_mul, Nat.one_mul] at g1
          omega
        · have : takenSize (s.trace ++ [.call r p a]) = takenSize s.trace := by
            simp only [takenSize, takenIn_snoc_call]
          simp only [NodeHeap.alloc, this, calledSize_append, calledSize] at ht ⊢
          omega
        · have : takenSize (s.trace ++ [.call r p a]) = takenSize s.trace := by
            simp only [takenSize, takenIn_snoc_call]
          simp only [this, calledSize_append, calledSize, lastTaken_append, lastTaken, c1, her, List.length_cons,
            true_and]
          refine ⟨c2, by omega, by omega⟩
      · cases hx
    · cases hx
  | finish r =>
    simp only [Listener.step] at hx
    split at hx
    · rename_i k p a todo running panicked e1
      split at hx
      · rename_i hr
        cases hx
        have hmem : Listener.memory keeps s h (.finish r) = (if keeps r p a then h else h.free p.bytes.length) := by
          simp only [Listener.memory, e1]
        rw [hmem]
        exact heapInv_ret l keeps s h hb hl hp ht hph k p a todo running panicked panicked e1 r hr
      · cases hx
    · cases hx
  | crash r =>
    simp only [Listener.step] at hx
    split at hx
    · rename_i k p a todo running panicked e1
      split at hx
      · rename_i hr
        cases hx
        have hmem : Listener.memory keeps s h (.crash r) = (if keeps r p a then h else h.free p.bytes.length) := by
          simp only [Listener.memory, e1]
        rw [hmem]
        exact heapInv_ret l keeps s h hb hl hp ht hph k p a todo running panicked true e1 r hr.1
      · cases hx
    · cases hx
  | join =>
    simp only [Listener.step] at hx
    split at hx
    · rename_i k p a todo running panicked e1
      split at hx
      · rename_i hr
        cases hx
        simp only [e1] at hph
        obtain ⟨c1, c2, c3, c4⟩ := hph
        have hmem : Listener.memory keeps s h .join =
            (if panicked then (h.free p.bytes.length).free s.buffer.length else h.free p.bytes.length) := by
          simp only [Listener.memory, e1]
        rw [hmem]
        obtain ⟨rfl, -⟩ := hr
        refine ⟨hb, ?_, ?_, ?_, ?_⟩
        · simp only [NetState.needs, e1, List.length_nil, Nat.zero_mul] at hl
          cases panicked
          · simp only [NetState.needs, NodeHeap.free, afterEvent]
            by_cases hk : k = 0 <;> simp [hk] <;> omega
          · simp only [NetState.needs, NodeHeap.free, if_true]
            omega
        · cases panicked <;> exact hp
        · cases panicked <;> exact ht
        · cases panicked
          · simp only [afterEvent]
            by_cases hk : k = 0 <;> simp [hk] <;> omega
          · simp only [if_true]
            omega
      · cases hx
    · cases hx

theorem hrun_inv (l : Listener) (keeps : Keeps) : ∀ (ls : List Label) (s : NetState) (h : NodeHeap) (s' : NetState)
    (h' : NodeHeap), HeapInv l keeps s h → l.hrun keeps s h ls = some (s', h') → HeapInv l keeps s' h'
  | [], _, _, _, _, hi, he => by
    cases he
    exact hi
  | x :: xs, s, h, s', h', hi, he => by
    simp only [Listener.hrun] at he
    cases hx : l.step s x with
    | none => simp [hx] at he
    | some m =>
      simp only [hx] at he
      exact hrun_inv l keeps xs m _ s' h' (heapInv_step l keeps s m h x hi hx) he

/-! ## C95 -/

/-- **C95, the same executions.**  Keeping account of the memory changes nothing: every execution of the listening
thread has exactly one account. -/
theorem C95_same (l : Listener) (keeps : Keeps) (s s' : NetState) (h : NodeHeap) (ls : List Label) :
    l.run s ls = some s' ↔ ∃ h', l.hrun keeps s h ls = some (s', h') := by
  induction ls generalizing s h with
  | nil => simp [Listener.run, Listener.hrun]
  | cons x xs ih =>
    simp only [Listener.run, Listener.hrun]
    cases l.step s x with
    | none => simp
    | some m => exact ih m _

/-- **C95.**  At every point of every execution, whatever arrives and however often, a listening thread has in memory
its buffer, the packet being handed out and one copy for every receiver running, and nothing else except what receivers
kept for themselves.  While it waits that is the buffer alone; once it has ended, by an error or by a receiver's panic,
nothing is left. -/
theorem C95 (l : Listener) (keeps : Keeps) (queued : List Datagram) (ls : List Label) (s : NetState) (h : NodeHeap)
    (he : l.hrun keeps (l.init queued) l.heapInit ls = some (s, h)) :
    h.live = keptIn keeps none s.trace + match s.phase with
      | .polling => l.buffersize
      | .handling _ => l.buffersize
      | .dispatch _ p _ _ running _ => l.buffersize + p.bytes.length + running.length * p.bytes.length
      | .stopped _ => 0 := by
  obtain ⟨hb, hl, -, -, -⟩ := hrun_inv l keeps ls _ _ s h (heapInv_init l keeps queued) he
  rw [hl, NetState.needs, hb]
  cases s.phase <;> exact Nat.add_comm _ _

/-- **C95, the most.**  Apart from what receivers kept, it never had more in memory at once than two buffers and one per
receiver (three without receivers). -/
theorem C95_peak (l : Listener) (keeps : Keeps) (queued : List Datagram) (ls : List Label) (s : NetState) (h : NodeHeap)
    (he : l.hrun keeps (l.init queued) l.heapInit ls = some (s, h)) :
    h.live ≤ h.peak ∧ h.peak ≤ l.buffersize * (2 + max 1 l.receivers.length) + keptIn keeps none s.trace := by
  refine ⟨?_, (hrun_inv l keeps ls _ _ s h (heapInv_init l keeps queued) he).peak⟩
  have key : ∀ (ls : List Label) (s : NetState) (h : NodeHeap) (s' : NetState) (h' : NodeHeap), h.live ≤ h.peak →
      l.hrun keeps s h ls = some (s', h') → h'.live ≤ h'.peak := by
    intro ls
    induction ls with
    | nil =>
      intro s h s' h' hle he
      cases he
      exact hle
    | cons x xs ih =>
      intro s h s' h' hle he
      simp only [Listener.hrun] at he
      cases hx : l.step s x with
      | none => simp [hx] at he
      | some m =>
        simp only [hx] at he
        refine ih m _ s' h' ?_ he
        have ha : ∀ (h : NodeHeap) n, h.live ≤ h.peak → (h.alloc n).live ≤ (h.alloc n).peak := by
          intro h n _
          simp only [NodeHeap.alloc]
          omega
        have hf : ∀ (h : NodeHeap) n, h.live ≤ h.peak → (h.free n).live ≤ (h.free n).peak := by
          intro h n _
          simp only [NodeHeap.free]
          omega
        cases x <;> simp only [Listener.memory] <;> (try split) <;> (try split) <;>
          first | exact hle | exact hf _ _ hle | exact ha _ _ hle | exact hf _ _ (hf _ _ hle) |
            exact hf _ _ (ha _ _ (ha _ _ hle))
  exact key ls _ _ s h (by simp [Listener.heapInit, NodeHeap.alloc]) he

/-- The peak only ever rises. -/
theorem hrun_peak_mono (l : Listener) (keeps : Keeps) : ∀ (ls : List Label) (s : NetState) (h : NodeHeap) (s' : NetState)
    (h' : NodeHeap), l.hrun keeps s h ls = some (s', h') → h.peak ≤ h'.peak ∧ h.total ≤ h'.total
  | [], _, _, _, _, he => by
    cases he
    exact ⟨Nat.le_refl _, Nat.le_refl _⟩
  | x :: xs, s, h, s', h', he => by
    simp only [Listener.hrun] at he
    cases hx : l.step s x with
    | none => simp [hx] at he
    | some m =>
      simp only [hx] at he
      have := hrun_peak_mono l keeps xs m _ s' h' he
      have h2 : h.peak ≤ (Listener.memory keeps s h x).peak ∧ h.total ≤ (Listener.memory keeps s h x).total := by
        cases x <;> simp only [Listener.memory] <;> (try split) <;> (try split) <;>
          (try simp only [NodeHeap.alloc, NodeHeap.free]) <;> omega
      omega

/-- **C95, requested.**  All the memory it ever requested: its buffer once, every packet taken from the socket twice, and
every packet once more for every receiver called with it.  So at most `2 + receivers` times the bytes received. -/
theorem C95_total (l : Listener) (keeps : Keeps) (queued : List Datagram) (ls : List Label) (s : NetState) (h : NodeHeap)
    (he : l.hrun keeps (l.init queued) l.heapInit ls = some (s, h)) :
    h.total = l.buffersize + 2 * takenSize s.trace + calledSize s.trace ∧
    calledSize s.trace ≤ l.receivers.length * takenSize s.trace := by
  obtain ⟨-, -, -, ht, hph⟩ := hrun_inv l keeps ls _ _ s h (heapInv_init l keeps queued) he
  refine ⟨ht, ?_⟩
  split at hph
  · have := hph.2.2.2
    omega
  · exact hph

/-- Receivers that keep nothing have kept nothing. -/
theorem keptIn_none (keeps : Keeps) (hk : ∀ r p a, keeps r p a = false) : ∀ (t : List Ev) c, keptIn keeps c t = 0
  | [], c => by cases c <;> rfl
  | .taken _ _ :: t, c => by cases c <;> exact keptIn_none keeps hk t _
  | .call _ _ _ :: t, c => by cases c <;> exact keptIn_none keeps hk t _
  | .ret _ :: t, none => keptIn_none keeps hk t none
  | .ret r :: t, some (p, a) => by simp [keptIn, hk, keptIn_none keeps hk t (some (p, a))]

/-- **C95, no leak.**  If receivers drop their packets, the memory live never exceeds a bound that does not mention the
execution: two buffers, and one per receiver. -/
theorem C95_bounded (l : Listener) (keeps : Keeps) (hk : ∀ r p a, keeps r p a = false) (queued : List Datagram)
    (ls : List Label) (s : NetState) (h : NodeHeap)
    (he : l.hrun keeps (l.init queued) l.heapInit ls = some (s, h)) :
    h.peak ≤ l.buffersize * (2 + max 1 l.receivers.length) := by
  have := (C95_peak l keeps queued ls s h he).2
  rwa [keptIn_none keeps hk, Nat.add_zero] at this

/-- **C95, a whole process.**  With any number of instances on a pool of `n` threads, none of them with a buffer of more
than `B` bytes, all listening threads and receivers together have at most two buffers per instance and one per pool thread
in memory, however many receivers the instances have: a receiver's copy of the packet is only made when a thread takes
it up. -/
theorem C95_pool (keeps : Keeps) (hk : ∀ r p a, keeps r p a = false) (n B : Nat) (ls : List PoolLabel) (p : Pool)
    (hr : (Pool.mk n []).run ls = some p) (hB : ∀ l q, (l, q) ∈ launched ls → l.buffersize ≤ B)
    (heaps : List NodeHeap) (hlen : heaps.length = p.members.length)
    (hh : ∀ (k : Nat) (m : Member) (h : NodeHeap), p.members[k]? = some m → heaps[k]? = some h →
      ∃ queued, (launched ls)[k]? = some (m.listener, queued) ∧
        m.listener.hrun keeps (m.listener.init queued) m.listener.heapInit (labelsAt k ls) = some (m.state, h)) :
    (heaps.map NodeHeap.live).sum ≤ (2 * p.members.length + n) * B := by
  have hn := C61_bound n ls p hr
  have key : ∀ (ms : List Member) (hs : List NodeHeap), hs.length = ms.length →
      (∀ (k : Nat) (m : Member) (h : NodeHeap), ms[k]? = some m → hs[k]? = some h →
        h.live ≤ (2 + m.state.running) * B) →
      (hs.map NodeHeap.live).sum ≤ (2 * ms.length + (ms.map fun m => m.state.running).sum) * B := by
    intro ms
    induction ms with
    | nil =>
      intro hs he _
      have : hs = [] := List.length_eq_zero_iff.mp he
      subst this
      simp
    | cons m ms ih =>
      intro hs he hall
      cases hs with
      | nil => simp at he
      | cons h hs =>
        have h1 := hall 0 m h rfl rfl
        have h2 := ih hs (by simpa using he) (fun k m' h' e1 e2 => hall (k + 1) m' h' e1 e2)
        simp only [List.map_cons, List.sum_cons, List.length_cons]
        rw [Nat.add_mul] at h1 h2
        have : (2 * (ms.length + 1) + (m.state.running + (ms.map fun m => m.state.running).sum)) * B =
            2 * B + m.state.running * B + (2 * ms.length * B + (ms.map fun m => m.state.running).sum * B) := by
          simp only [Nat.add_mul, Nat.mul_add, Nat.mul_assoc]
          omega
        omega
  refine Nat.le_trans (key p.members heaps hlen ?_) (Nat.mul_le_mul_right _ (by simp only [Pool.running] at hn; omega))
  intro k m h e1 e2
  obtain ⟨queued, hq, he⟩ := hh k m h e1 e2
  obtain ⟨hb, hl, -, -, hph⟩ := hrun_inv m.listener keeps _ _ _ m.state h (heapInv_init m.listener keeps queued) he
  have hBm := hB m.listener queued (List.mem_of_getElem? hq)
  rw [hl, keptIn_none keeps hk]
  simp only [NetState.needs, NetState.running, hb]
  cases hp : m.state.phase with
  | polling => simp only; omega
  | handling _ => simp only; omega
  | stopped _ => simp only; omega
  | dispatch k p a todo running panicked =>
    simp only [hp] at hph ⊢
    rw [Nat.add_mul]
    have g1 := Nat.mul_le_mul_left running.length (Nat.le_trans hph.2.1 hBm)
    have g2 := hph.2.1
    omega

/-- Every instance of a process has such an account. -/
theorem C95_pool_accounts (keeps : Keeps) (n : Nat) (ls : List PoolLabel) (p : Pool)
    (hr : (Pool.mk n []).run ls = some p) :
    ∃ heaps : List NodeHeap, heaps.length = p.members.length ∧
      ∀ (k : Nat) (m : Member) (h : NodeHeap), p.members[k]? = some m → heaps[k]? = some h →
        ∃ queued, (launched ls)[k]? = some (m.listener, queued) ∧
          m.listener.hrun keeps (m.listener.init queued) m.listener.heapInit (labelsAt k ls) = some (m.state, h) := by
  have hall : ∀ k : Nat, ∃ h : NodeHeap, ∀ m : Member, p.members[k]? = some m → ∃ queued, (launched ls)[k]? = some (m.listener, queued) ∧
      m.listener.hrun keeps (m.listener.init queued) m.listener.heapInit (labelsAt k ls) = some (m.state, h) := by
    intro k
    cases hm : p.members[k]? with
    | none => exact ⟨⟨0, 0, 0⟩, fun m e => by cases e⟩
    | some m =>
      obtain ⟨queued, hq, he⟩ := C61 n ls p hr k m hm
      obtain ⟨h, hh⟩ := (C95_same m.listener keeps _ _ m.listener.heapInit _).mp he
      exact ⟨h, fun m' e => by cases e; exact ⟨queued, hq, hh⟩⟩
  refine ⟨(List.range p.members.length).map fun k => Classical.choose (hall k), by simp, ?_⟩
  intro k m h e1 e2
  simp only [List.getElem?_map, Option.map_eq_some_iff] at e2
  obtain ⟨k', hk', rfl⟩ := e2
  have := (List.getElem?_eq_some_iff.mp hk').2
  simp only [List.getElem_range] at this
  subst this
  exact Classical.choose_spec (hall k) m e1

/-! ### The bound is attained -/

/-- The pool takes up these receivers one after the other. -/
theorem run_starts (l : Listener) : ∀ (xs : List Nat) (s : NetState) (k : Nat) (p : Packet) (a : Address)
    (running : List Nat), s.phase = .dispatch k p a xs running false →
    ∃ s', l.run s (xs.map .start) = some s' ∧ s'.phase = .dispatch k p a [] (xs.reverse ++ running) false
  | [], s, k, p, a, running, hp => ⟨s, rfl, by simpa using hp⟩
  | x :: xs, s, k, p, a, running, hp => by
    have hstep : l.step s (.start x) = some { s with
        phase := .dispatch k p a xs (x :: running) false
        trace := s.trace ++ [.call x p a] } := by
      simp only [Listener.step, hp, List.mem_cons, true_or, if_true, List.erase_cons_head]
    obtain ⟨s', h1, h2⟩ := run_starts l xs { s with
        phase := .dispatch k p a xs (x :: running) false
        trace := s.trace ++ [.call x p a] } k p a (x :: running) rfl
    exact ⟨s', by simp only [List.map_cons, Listener.run, hstep, h1], by simpa using h2⟩

/-- **C95, exact.**  A thread with receivers does come to need two buffers and one per receiver: one datagram as long as
the buffer, with all receivers busy with it. -/
theorem C95_attained (l : Listener) (keeps : Keeps) (source : SocketAddr) :
    ∃ ls s h, l.hrun keeps (l.init []) l.heapInit ls = some (s, h) ∧
      h.live = l.buffersize * (2 + l.receivers.length) := by
  let d : Datagram := ⟨List.replicate l.buffersize 0, source⟩
  have h0 : ∃ s, l.run (l.init []) [.arrive d, .pollEvent, .recv] = some s ∧
      s.phase = .dispatch 0 ⟨d.bytes⟩ ⟨d.source⟩ (List.range l.receivers.length) [] false := by
    refine ⟨_, rfl, ?_⟩
    show Phase.dispatch 0 ⟨(recvInto (List.replicate l.buffersize 0) d.bytes).2.take
      (recvInto (List.replicate l.buffersize 0) d.bytes).1⟩ _ _ _ _ = _
    rw [cut_eq]
    simp [d]
  obtain ⟨s, h1, h2⟩ := h0
  obtain ⟨s', h3, h4⟩ := run_starts l _ s _ _ _ _ h2
  have hr : l.run (l.init []) ([.arrive d, .pollEvent, .recv] ++ (List.range l.receivers.length).map .start) = some s' := by
    rw [run_append, h1]
    exact h3
  obtain ⟨h, hh⟩ := (C95_same l keeps _ _ l.heapInit _).mp hr
  refine ⟨_, s', h, hh, ?_⟩
  have hl := (hrun_inv l keeps _ _ _ s' h (heapInv_init l keeps []) hh)
  have hlive := hl.live
  have hkept : keptIn keeps none s'.trace = 0 := by
    have hret : ∀ (xs : List Nat) (s s' : NetState), (∀ c, keptIn keeps c s.trace = 0) →
        l.run s (xs.map .start) = some s' → ∀ c, keptIn keeps c s'.trace = 0 := by
      intro xs
      induction xs with
      | nil =>
        intro s s' hz he
        cases he
        exact hz
      | cons x xs ih =>
        intro s s' hz he
        simp only [List.map_cons, Listener.run] at he
        cases hx : l.step s (.start x) with
        | none => simp [hx] at he
        | some m =>
          simp only [hx] at he
          refine ih m s' ?_ he
          simp only [Listener.step] at hx
          split at hx
          · split at hx
            · cases hx
              intro c
              simp only [keptIn_append, hz c, Nat.zero_add]
              cases lastTaken c s.trace <;> rfl
            · cases hx
          · cases hx
    refine hret _ s s' ?_ h3 none
    cases h1
    intro c
    cases c <;> rfl
  rw [hlive, hkept, NetState.needs, h4, hl.buffer]
  simp [d, Nat.mul_add, Nat.mul_comm]
  omega

/-! ### A receiver that keeps its packets -/

/-- `n` datagrams, one after the other, each handed to the only receiver. -/
def oneByOne (d : Datagram) : Nat → List Label
  | 0 => []
  | n + 1 => oneByOne d n ++ [.arrive d, .pollEvent, .recv, .start 0, .finish 0, .join]

/-- **C95, a keeper.**  The bound depends on the receivers: one that keeps every packet makes the memory grow with every
datagram, without end, since nothing limits how many packets are handed to it. -/
theorem C95_keeper (x : Receiver) (b : Nat) (d : Datagram) (hd : d.bytes.length ≤ b) (n : Nat) :
    ∃ s h, (Listener.mk [x] b).hrun (fun _ _ _ => true) ((Listener.mk [x] b).init []) (Listener.mk [x] b).heapInit
      (oneByOne d n) = some (s, h) ∧ s.phase = .polling ∧ h.live = b + n * d.bytes.length := by
  let l := Listener.mk [x] b
  have key : ∃ s, l.run (l.init []) (oneByOne d n) = some s ∧ s.phase = .polling ∧ s.queue = [] ∧ s.ready = false ∧
      s.buffer.length = b ∧ keptIn (fun _ _ _ => true) none s.trace = n * d.bytes.length := by
    induction n with
    | zero => exact ⟨_, rfl, rfl, rfl, rfl, by simp [l, Listener.init], by simp [Listener.init, keptIn]⟩
    | succ n ih =>
      obtain ⟨s, h1, h2, h3, h4, h5, h6⟩ := ih
      have hcut := cut_eq s.buffer d.bytes
      have hlen := recvInto_length s.buffer d.bytes
      rw [h5, List.take_of_length_le hd] at hcut
      have hrun : l.run s [.arrive d, .pollEvent, .recv, .start 0, .finish 0, .join] = some { s with
          queue := []
          ready := false
          buffer := (recvInto s.buffer d.bytes).2
          phase := .polling
          trace := s.trace ++ [.taken ⟨d.bytes⟩ ⟨d.source⟩] ++ [.call 0 ⟨d.bytes⟩ ⟨d.source⟩] ++ [.ret 0] } := by
        simp [Listener.run, Listener.step, h2, h3, hcut, l, List.range_succ, afterEvent]
      refine ⟨{ s with
          queue := []
          ready := false
          buffer := (recvInto s.buffer d.bytes).2
          phase := .polling
          trace := s.trace ++ [.taken ⟨d.bytes⟩ ⟨d.source⟩] ++ [.call 0 ⟨d.bytes⟩ ⟨d.source⟩] ++ [.ret 0] },
        ?_, rfl, rfl, rfl, hlen.trans h5, ?_⟩
      · rw [oneByOne, run_append, h1]
        exact hrun
      · simp only [List.append_assoc, keptIn_append, h6]
        cases lastTaken none s.trace <;> simp [keptIn, lastTaken, Nat.add_mul]
  obtain ⟨s, h1, h2, -, -, h5, h6⟩ := key
  obtain ⟨h, hh⟩ := (C95_same l (fun _ _ _ => true) _ _ l.heapInit _).mp h1
  refine ⟨s, h, hh, h2, ?_⟩
  rw [(hrun_inv l _ _ _ _ s h (heapInv_init l _ []) hh).live, NetState.needs, h2, h6, h5]

/-! ### Examples -/

/-- Two receivers and a buffer of four bytes. -/
def twoCalm : Listener := ⟨[quietReceiver, quietReceiver], 4⟩

/-- A datagram of ten bytes at a node with a buffer of four and two receivers, the second of which keeps its packets. -/
example : (twoCalm.hrun (fun r _ _ => r == 1) (twoCalm.init []) twoCalm.heapInit
      [.arrive ⟨[1, 2, 3, 4, 5, 6, 7, 8, 9, 10], .v4 1 2 3 4 5⟩, .pollEvent, .recv, .start 1, .start 0, .finish 1, .finish 0,
        .join]).map (·.2) =
    some ⟨8, 16, 20⟩ := by
  decide

/-! ## Cases for the theorems above -/

/-- `C95_bounded` and `C95_total`: the same run with receivers that keep nothing. -/
example (s : NetState) (h : NodeHeap) (he : twoCalm.hrun (fun _ _ _ => false) (twoCalm.init []) twoCalm.heapInit
    [.arrive ⟨[1, 2, 3, 4, 5, 6, 7, 8, 9, 10], .v4 1 2 3 4 5⟩, .pollEvent, .recv, .start 1, .start 0, .finish 1, .finish 0,
      .join] = some (s, h)) :
    h.peak ≤ 4 * (2 + 2) ∧ h.total = 4 + 2 * takenSize s.trace + calledSize s.trace :=
  ⟨C95_bounded twoCalm _ (fun _ _ _ => rfl) [] _ s h he, (C95_total twoCalm _ [] _ s h he).1⟩

/-- `C95_pool` and `C95_pool_accounts`: two instances on a pool with one thread hold at most five buffers of 16 bytes. -/
example (p : Pool) (hr : (Pool.mk 1 []).run sharedPool = some p) :
    ∃ heaps : List NodeHeap, heaps.length = 2 ∧ (heaps.map NodeHeap.live).sum ≤ 80 := by
  obtain ⟨heaps, h1, h2⟩ := C95_pool_accounts (fun _ _ _ => false) 1 sharedPool p hr
  have hm : p.members.length = 2 := by
    cases hr
    decide +kernel
  have := C95_pool (fun _ _ _ => false) (fun _ _ _ => rfl) 1 16 sharedPool p hr (by
    intro l q h
    simp only [sharedPool, launched, List.mem_cons, Prod.mk.injEq, List.not_mem_nil, or_false] at h
    rcases h with ⟨rfl, -⟩ | ⟨rfl, -⟩ <;> exact Nat.le_refl _) heaps h1 h2
  rw [hm] at this
  exact ⟨heaps, by rw [h1, hm], this⟩

/-- `C95` and `C95_peak`: the run above in which the second receiver keeps its packets. -/
example (s : NetState) (h : NodeHeap) (he : twoCalm.hrun (fun r _ _ => r == 1) (twoCalm.init []) twoCalm.heapInit
    [.arrive ⟨[1, 2, 3, 4, 5, 6, 7, 8, 9, 10], .v4 1 2 3 4 5⟩, .pollEvent, .recv, .start 1, .start 0, .finish 1, .finish 0,
      .join] = some (s, h)) :
    h.live = keptIn (fun r _ _ => r == 1) none s.trace + 4 ∧ h.peak ≤ 4 * (2 + 2) + keptIn (fun r _ _ => r == 1) none s.trace := by
  have h1 := C95 twoCalm _ [] _ s h he
  rw [show s.phase = .polling by cases he; rfl] at h1
  exact ⟨h1, (C95_peak twoCalm _ [] _ s h he).2⟩

/-- `C95_keeper` and `C95_same`: ten datagrams of two bytes. -/
example := C95_keeper quietReceiver 16 ⟨[1, 2], .v4 1 2 3 4 5⟩ (by decide) 10
example := C95_same twoCalm (fun _ _ _ => false) (twoCalm.init [])

end Ipv8
