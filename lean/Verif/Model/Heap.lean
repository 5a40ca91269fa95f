import Verif.Model.Pool
/-!
# The heap memory of a listening thread

`Model/Network.lean` once more, with the memory `listen` and its receivers have for datagrams: what is live, what was
live at most, and what was ever requested.  Counted are the vectors of bytes; not counted are the event array of `mio`,
rayon's job for each packet, and error values, all of constant size.
-/

namespace Ipv8

/-- Bytes of heap memory. -/
structure NodeHeap where
  live : Nat
  peak : Nat
  total : Nat
  deriving DecidableEq, Repr

/-- A vector is allocated. -/
def NodeHeap.alloc (h : NodeHeap) (n : Nat) : NodeHeap := ⟨h.live + n, max h.peak (h.live + n), h.total + n⟩

/-- A vector is dropped. -/
def NodeHeap.free (h : NodeHeap) (n : Nat) : NodeHeap := { h with live := h.live - n }

/-- Which receivers keep the packet they are given: `on_receive` takes it by value (`networking/mod.rs:26`), so it is
up to the receiver to drop it. -/
abbrev Keeps := Nat → Packet → Address → Bool

/-- What a step of the listening thread does to the heap. -/
def Listener.memory (keeps : Keeps) (s : NetState) (h : NodeHeap) : Label → NodeHeap
  -- an error of `poll` ends `listen`, which drops `tmp_buf` (networking/mod.rs:116,123)
  | .pollError => h.free s.buffer.length
  | .recvError => h.free s.buffer.length
  -- `Packet(buffer[..recv_size].to_vec()).clone()`: two vectors, of which the first is dropped at the end of the
  -- statement (130); or the error of `recv_from` (128)
  | .recv =>
    match s.queue with
    | [] => h.free s.buffer.length
    | d :: _ =>
      let n := min d.bytes.length s.buffer.length
      ((h.alloc n).alloc n).free n
  -- `packet.clone()` (137)
  | .start _ =>
    match s.phase with
    | .dispatch _ p _ _ _ _ => h.alloc p.bytes.length
    | _ => h
  -- the receiver drops its packet, unless it keeps it
  | .finish r =>
    match s.phase with
    | .dispatch _ p a _ _ _ => if keeps r p a then h else h.free p.bytes.length
    | _ => h
  | .crash r =>
    match s.phase with
    | .dispatch _ p a _ _ _ => if keeps r p a then h else h.free p.bytes.length
    | _ => h
  -- end of the loop's body: `packet` is dropped; if a receiver's panic goes on, so is `tmp_buf`
  | .join =>
    match s.phase with
    | .dispatch _ p _ _ _ panicked =>
      let h := h.free p.bytes.length
      if panicked then h.free s.buffer.length else h
    | _ => h
  | .arrive _ => h
  | .pollEvent => h
  | .pollTimeout => h
  | .pollSpurious => h

/-- The heap when `listen` enters its loop: `vec![0; buffersize]` (`networking/mod.rs:116`). -/
def Listener.heapInit (l : Listener) : NodeHeap := (NodeHeap.mk 0 0 0).alloc l.buffersize

/-- Run a list of labels and keep account of the memory. -/
def Listener.hrun (l : Listener) (keeps : Keeps) (s : NetState) (h : NodeHeap) : List Label → Option (NetState × NodeHeap)
  | [] => some (s, h)
  | x :: xs =>
    match l.step s x with
    | some s' => l.hrun keeps s' (Listener.memory keeps s h x) xs
    | none => none

end Ipv8
