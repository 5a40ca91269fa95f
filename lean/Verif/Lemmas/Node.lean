import Verif.SpecNode
import Verif.Props.Network
import Verif.Props.Process
/-!
# Lemmas for C66 and C67
-/

namespace Ipv8

open Spec

/-! ## Histories -/

theorem history_append (s : Nat) (l1 l2 : List (Nat × NEv)) :
    history s (l1 ++ l2) = history s l1 ++ history s l2 := by
  simp [history]

theorem history_same (s : Nat) (es : List NEv) : history s (es.map fun e => (s, e)) = es := by
  induction es with
  | nil => rfl
  | cons e es ih => simpa [history] using ih

theorem history_other {s t : Nat} (h : t ≠ s) (es : List NEv) :
    history s (es.map fun e => (t, e)) = [] := by
  induction es with
  | nil => rfl
  | cons e es ih => simp [history, h]

theorem arrivedIn_append (a b : List NEv) : arrivedIn (a ++ b) = arrivedIn a ++ arrivedIn b := by
  induction a with
  | nil => rfl
  | cons e a ih => cases e <;> simp [arrivedIn, ih]

theorem registeredIn_append (a b : List NEv) :
    registeredIn (a ++ b) = registeredIn a ++ registeredIn b := by
  induction a with
  | nil => rfl
  | cons e a ih => cases e <;> simp [registeredIn, ih]

theorem threadIn_append (a b : List NEv) : threadIn (a ++ b) = threadIn a ++ threadIn b := by
  induction a with
  | nil => rfl
  | cons e a ih => cases e <;> simp [threadIn, ih]

theorem arrivedIn_net (es : List Ev) : arrivedIn (es.map .net) = [] := by
  induction es with
  | nil => rfl
  | cons e es ih => simp [arrivedIn, ih]

theorem registeredIn_net (es : List Ev) : registeredIn (es.map .net) = [] := by
  induction es with
  | nil => rfl
  | cons e es ih => simp [registeredIn, ih]

theorem threadIn_net (es : List Ev) : threadIn (es.map .net) = es := by
  induction es with
  | nil => rfl
  | cons e es ih => simp [threadIn, ih]

theorem observed_snoc (l : Listener) (x : Label) : ∀ (ls : List Label) (s0 s s' : NetState),
    l.run s0 ls = some s → l.step s x = some s' →
    l.run s0 (ls ++ [x]) = some s' ∧
    observed l s0 (ls ++ [x]) = observed l s0 ls ++
      (match x with
       | .arrive d => [.arrive d]
       | _ => (s'.trace.drop s.trace.length).map .net) := by
  intro ls
  induction ls with
  | nil =>
    intro s0 s s' h hx
    simp only [Listener.run, Option.some.injEq] at h
    subst h
    constructor
    · simp [Listener.run, hx]
    · cases x <;> simp [observed, hx]
  | cons y ls ih =>
    intro s0 s s' h hx
    simp only [Listener.run] at h
    cases hy : l.step s0 y with
    | none => rw [hy] at h; simp at h
    | some s1 =>
      rw [hy] at h
      obtain ⟨h1, h2⟩ := ih s1 s s' h hx
      constructor
      · simp only [List.cons_append, Listener.run, hy]; exact h1
      · cases y <;> simp only [List.cons_append, observed, hy, h2, List.append_assoc]

/-! ## The invariant -/

/-- What owns a socket. -/
inductive Obj
  | sender (a : SocketAddr)
  | receiver (a : SocketAddr) (queue : List Datagram) (net : NetworkReceiver)
  | thread (a : SocketAddr) (l : Listener) (s : NetState)

def Obj.address : Obj → SocketAddr
  | .sender a => a
  | .receiver a _ _ => a
  | .thread a _ _ => a

/-- The object is what its history says. -/
def Obj.Fits : Obj → List NEv → Prop
  | .sender a, h => SenderLife a h
  | .receiver a queue net, h => ReceiverLife a h ∧ arrivedIn h = queue ∧ registeredIn h = net.receivers
  | .thread a l s, h => ∃ t b ls, ReceiverLife a (.bind .receiver a :: t) ∧ l = ⟨registeredIn t, b⟩ ∧
      l.run (l.init (arrivedIn t)) ls = some s ∧
      h = .bind .receiver a :: t ++ .start b :: observed l (l.init (arrivedIn t)) ls

theorem Obj.Fits.life {o : Obj} {h : List NEv} (hf : o.Fits h) : Life o.address h := by
  cases o with
  | sender a => exact .inl hf
  | receiver a q n => exact .inr (.inl hf.1)
  | thread a l s =>
    obtain ⟨t, b, ls, h1, rfl, h3, h4⟩ := hf
    exact .inr (.inr ⟨t, b, ls, s, h1, h3, h4⟩)

/-- All objects with their sockets. -/
def objsOf (S : List OpenSender) (R : List OpenReceiver) (I : List OpenInstance) (T : List Thread) :
    List (Nat × Obj) :=
  S.map (fun x => (x.socket, .sender x.address)) ++
  R.map (fun x => (x.socket, .receiver x.address x.queue x.net)) ++
  I.flatMap (fun x =>
    [(x.receiverSocket, .receiver x.receiverAddress x.queue x.ipv8.networkReceiver),
      (x.sender.socket, .sender x.sender.address)]) ++
  T.map (fun x => (x.socket, .thread x.address x.listener x.state))

abbrev Node.objs (n : Node) : List (Nat × Obj) := objsOf n.senders n.receivers n.instances n.threads

theorem Node.sockets_eq (n : Node) : n.sockets = n.objs.map fun x => (x.1, x.2.address) := by
  simp [Node.sockets, Node.objs, objsOf, List.map_flatMap, Obj.address, Function.comp_def]

/-- The invariant, for objects, history and next number. -/
structure NInv (N : Net) (os : List (Nat × Obj)) (log : List (Nat × NEv)) (next : Nat) : Prop where
  nodup : (os.map Prod.fst).Nodup
  below : ∀ x ∈ os, x.1 < next
  apart : os.Pairwise fun x y => N.conflict x.2.address y.2.address = false
  fits : ∀ x ∈ os, x.2.Fits (history x.1 log)
  closed : ∀ s, s < next → s ∉ os.map Prod.fst → ∃ a h, history s log = h ++ [.close] ∧ Life a h
  fresh : ∀ s, next ≤ s → history s log = []

theorem NInv.perm {N : Net} {os os' : List (Nat × Obj)} {log : List (Nat × NEv)} {next : Nat}
    (h : NInv N os log next) (hp : os.Perm os') : NInv N os' log next where
  nodup := (hp.map Prod.fst).nodup_iff.mp h.nodup
  below := fun x hx => h.below x (hp.mem_iff.mpr hx)
  apart := by
    refine (hp.pairwise_iff ?_).mp h.apart
    intro x y hxy
    rw [N.symm]; exact hxy
  fits := fun x hx => h.fits x (hp.mem_iff.mpr hx)
  closed := fun s hs hn => h.closed s hs (fun hm => hn ((hp.map Prod.fst).mem_iff.mp hm))
  fresh := h.fresh

/-- A new object. -/
theorem NInv.add {N : Net} {os os' : List (Nat × Obj)} {log : List (Nat × NEv)} {next : Nat} {o : Obj}
    {e : NEv} (h : NInv N os log next) (hp : ((next, o) :: os).Perm os') (hf : o.Fits [e])
    (hc : ∀ x ∈ os, N.conflict o.address x.2.address = false) :
    NInv N os' (log ++ [(next, e)]) (next + 1) := by
  have hh : ∀ s, history s (log ++ [(next, e)]) = history s log ++ if next = s then [e] else [] := by
    intro s
    rw [history_append]
    by_cases hs : next = s
    · simp [history, hs]
    · simp [history, hs]
  refine NInv.perm ?_ hp
  constructor
  · simp only [List.map_cons, List.nodup_cons]
    refine ⟨?_, h.nodup⟩
    intro hm
    obtain ⟨x, hx, he⟩ := List.mem_map.mp hm
    have := h.below x hx
    omega
  · intro x hx
    rcases List.mem_cons.mp hx with rfl | hx
    · simp
    · have := h.below x hx; omega
  · exact List.pairwise_cons.mpr ⟨hc, h.apart⟩
  · intro x hx
    rcases List.mem_cons.mp hx with rfl | hx
    · rw [hh, if_pos rfl, h.fresh next (Nat.le_refl _)]
      exact hf
    · rw [hh, if_neg (by have := h.below x hx; omega), List.append_nil]
      exact h.fits x hx
  · intro s hs hn
    simp only [List.map_cons, List.mem_cons, not_or] at hn
    rw [hh, if_neg (fun h => hn.1 h.symm), List.append_nil]
    exact h.closed s (by omega) hn.2
  · intro s hs
    rw [hh, if_neg (by omega), List.append_nil]
    exact h.fresh s (by omega)

/-- An object changes, with these events. -/
theorem NInv.change {N : Net} {os os' rest : List (Nat × Obj)} {log : List (Nat × NEv)} {next s : Nat}
    {o o' : Obj} (es : List NEv) (h : NInv N os log next) (hp : os.Perm ((s, o) :: rest))
    (hp' : ((s, o') :: rest).Perm os') (ha : o'.address = o.address)
    (hf : ∀ h, o.Fits h → o'.Fits (h ++ es)) :
    NInv N os' (log ++ es.map fun e => (s, e)) next := by
  have h := h.perm hp
  have hn := h.nodup
  simp only [List.map_cons, List.nodup_cons] at hn
  have hh : ∀ t, t ≠ s → history t (log ++ es.map fun e => (s, e)) = history t log := by
    intro t ht
    rw [history_append, history_other (Ne.symm ht), List.append_nil]
  have hs : s < next := h.below _ (List.mem_cons_self ..)
  refine NInv.perm ?_ hp'
  constructor
  · simpa using hn
  · intro x hx
    rcases List.mem_cons.mp hx with rfl | hx
    · exact hs
    · exact h.below x (List.mem_cons_of_mem _ hx)
  · have := List.pairwise_cons.mp h.apart
    refine List.pairwise_cons.mpr ⟨?_, this.2⟩
    intro x hx
    rw [ha]; exact this.1 x hx
  · intro x hx
    rcases List.mem_cons.mp hx with rfl | hx
    · simp only
      rw [history_append, history_same]
      exact hf _ (h.fits _ (List.mem_cons_self ..))
    · rw [hh]
      · exact h.fits x (List.mem_cons_of_mem _ hx)
      · intro he
        exact hn.1 (he ▸ List.mem_map_of_mem hx)
  · intro t ht hnt
    have : t ≠ s := by rintro rfl; exact hnt (by simp)
    rw [hh t this]
    exact h.closed t ht (by simpa using hnt)
  · intro t ht
    rw [hh t (by omega)]
    exact h.fresh t ht

/-- An object is dropped. -/
theorem NInv.close {N : Net} {os os' : List (Nat × Obj)} {log : List (Nat × NEv)} {next s : Nat}
    {o : Obj} (h : NInv N os log next) (hp : os.Perm ((s, o) :: os')) :
    NInv N os' (log ++ [(s, .close)]) next := by
  have h := h.perm hp
  have hn := h.nodup
  simp only [List.map_cons, List.nodup_cons] at hn
  have hh : ∀ t, t ≠ s → history t (log ++ [(s, .close)]) = history t log := by
    intro t ht
    have := history_other (Ne.symm ht) [NEv.close]
    rw [history_append]
    simpa using this
  constructor
  · exact hn.2
  · exact fun x hx => h.below x (List.mem_cons_of_mem _ hx)
  · exact (List.pairwise_cons.mp h.apart).2
  · intro x hx
    rw [hh]
    · exact h.fits x (List.mem_cons_of_mem _ hx)
    · intro he
      exact hn.1 (he ▸ List.mem_map_of_mem hx)
  · intro t ht hnt
    by_cases hts : t = s
    · subst hts
      refine ⟨o.address, history t log, ?_, (h.fits _ (List.mem_cons_self ..)).life⟩
      have := history_same t [NEv.close]
      rw [history_append]
      simpa using this
    · rw [hh t hts]
      refine h.closed t ht ?_
      simpa [hts] using hnt
  · intro t ht
    have : t ≠ s := by
      have := h.below _ (List.mem_cons_self ..)
      simp only at this
      omega
    rw [hh t this]
    exact h.fresh t ht

/-- What an arrival does to an object. -/
def Obj.arrive (N : Net) (dest : SocketAddr) (d : Datagram) (o : Obj) : Obj :=
  if N.reaches o.address dest then
    match o with
    | .sender a => .sender a
    | .receiver a q net => .receiver a (q ++ [d]) net
    | .thread a l s => .thread a l ((l.step s (.arrive d)).getD s)
  else o

theorem Obj.arrive_sender (N : Net) (dest : SocketAddr) (d : Datagram) (a : SocketAddr) :
    (Obj.sender a).arrive N dest d = .sender a := by
  unfold Obj.arrive; split <;> rfl

theorem Obj.arrive_receiver (N : Net) (dest : SocketAddr) (d : Datagram) (a : SocketAddr)
    (q : List Datagram) (net : NetworkReceiver) :
    (Obj.receiver a q net).arrive N dest d =
      .receiver a (if N.reaches a dest then q ++ [d] else q) net := by
  by_cases h : N.reaches a dest = true <;> simp [Obj.arrive, Obj.address, h]

theorem Obj.arrive_address (N : Net) (dest : SocketAddr) (d : Datagram) (o : Obj) :
    (o.arrive N dest d).address = o.address := by
  cases o <;> simp only [Obj.arrive] <;> split <;> rfl

theorem Obj.arrive_fits (N : Net) (dest : SocketAddr) (d : Datagram) (o : Obj) (h : List NEv)
    (hf : o.Fits h) :
    (o.arrive N dest d).Fits (h ++ if N.reaches o.address dest then [.arrive d] else []) := by
  by_cases hr : N.reaches o.address dest = true
  · simp only [Obj.arrive, hr, if_true]
    cases o with
    | sender a =>
      obtain ⟨t, rfl, ht⟩ := hf
      refine ⟨t ++ [.arrive d], by simp, ?_⟩
      intro e he
      rcases List.mem_append.mp he with he | he
      · exact ht e he
      · exact .inl ⟨d, by simpa using he⟩
    | receiver a q net =>
      obtain ⟨⟨t, rfl, ht⟩, h1, h2⟩ := hf
      refine ⟨⟨t ++ [.arrive d], by simp, ?_⟩, ?_, ?_⟩
      · intro e he
        rcases List.mem_append.mp he with he | he
        · exact ht e he
        · exact .inl ⟨d, by simpa using he⟩
      · rw [arrivedIn_append, h1]; rfl
      · rw [registeredIn_append, h2]; simp [registeredIn]
    | thread a l s =>
      obtain ⟨t, b, ls, h1, h2, h3, rfl⟩ := hf
      obtain ⟨g1, g2⟩ := observed_snoc l (.arrive d) ls _ s _ h3 rfl
      refine ⟨t, b, ls ++ [.arrive d], h1, h2, g1, ?_⟩
      rw [g2]
      simp
  · simp only [Obj.arrive, hr]
    simpa using hf

theorem history_arrive (N : Net) (dest : SocketAddr) (d : Datagram) (s : Nat) :
    ∀ (os : List (Nat × Obj)), (os.map Prod.fst).Nodup →
    history s ((os.filter fun x => N.reaches x.2.address dest).map fun x => (x.1, .arrive d)) =
      if os.any (fun x => x.1 == s && N.reaches x.2.address dest) then [.arrive d] else [] := by
  intro os
  induction os with
  | nil => intro _; rfl
  | cons x os ih =>
    intro hn
    simp only [List.map_cons, List.nodup_cons] at hn
    have ih := ih hn.2
    have hnone : x.1 = s → os.any (fun x => x.1 == s && N.reaches x.2.address dest) = false := by
      intro hs
      rw [List.any_eq_false]
      intro y hy
      have : y.1 ≠ s := by
        rintro rfl
        exact hn.1 (hs ▸ List.mem_map_of_mem hy)
      simp [this]
    rw [List.any_cons]
    by_cases hr : N.reaches x.2.address dest = true
    · rw [List.filter_cons_of_pos (p := fun x : Nat × Obj => N.reaches x.2.address dest) hr]
      by_cases hs : x.1 = s
      · rw [hnone hs] at ih
        simp only [history] at ih ⊢
        simp only [hr, hs, List.map_cons, List.filter_cons]
        simp [ih]
      · have : (x.1 == s) = false := by simpa using hs
        simp only [history] at ih ⊢
        simp only [this, List.map_cons, List.filter_cons, Bool.false_and, Bool.false_or]
        simpa using ih
    · rw [List.filter_cons_of_neg (p := fun x : Nat × Obj => N.reaches x.2.address dest) (by simpa using hr)]
      have : N.reaches x.2.address dest = false := by simpa using hr
      rw [this, Bool.and_false, Bool.false_or]
      exact ih

theorem eq_of_fst {α β : Type} : ∀ (os : List (α × β)), (os.map Prod.fst).Nodup →
    ∀ x ∈ os, ∀ y ∈ os, x.1 = y.1 → x = y := by
  intro os
  induction os with
  | nil => intro _ x hx; simp at hx
  | cons z os ih =>
    intro hn x hx y hy he
    simp only [List.map_cons, List.nodup_cons] at hn
    rcases List.mem_cons.mp hx with h1 | h1 <;> rcases List.mem_cons.mp hy with h2 | h2
    · rw [h1, h2]
    · exact absurd (h1 ▸ he ▸ List.mem_map_of_mem h2) hn.1
    · exact absurd (h2 ▸ he ▸ List.mem_map_of_mem h1) hn.1
    · exact ih hn.2 x h1 y h2 he

theorem NInv.arrive {N : Net} {os : List (Nat × Obj)} {log : List (Nat × NEv)} {next : Nat}
    (h : NInv N os log next) (dest : SocketAddr) (d : Datagram) :
    NInv N (os.map fun x => (x.1, x.2.arrive N dest d))
      (log ++ (os.filter fun x => N.reaches x.2.address dest).map fun x => (x.1, .arrive d)) next := by
  have hfst : (os.map fun x => (x.1, x.2.arrive N dest d)).map Prod.fst = os.map Prod.fst := by
    simp [Function.comp_def]
  have hh : ∀ s, history s (log ++ (os.filter fun x => N.reaches x.2.address dest).map
      fun x => (x.1, .arrive d)) = history s log ++
      if os.any (fun x => x.1 == s && N.reaches x.2.address dest) then [.arrive d] else [] := by
    intro s
    rw [history_append, history_arrive N dest d s os h.nodup]
  have hnot : ∀ s, s ∉ os.map Prod.fst →
      os.any (fun x => x.1 == s && N.reaches x.2.address dest) = false := by
    intro s hs
    rw [List.any_eq_false]
    intro y hy
    have : y.1 ≠ s := by
      rintro rfl
      exact hs (List.mem_map_of_mem hy)
    simp [this]
  constructor
  · rw [hfst]; exact h.nodup
  · intro x hx
    obtain ⟨y, hy, rfl⟩ := List.mem_map.mp hx
    exact h.below y hy
  · rw [List.pairwise_map]
    refine h.apart.imp ?_
    intro x y hxy
    simpa [Obj.arrive_address] using hxy
  · intro x hx
    obtain ⟨y, hy, rfl⟩ := List.mem_map.mp hx
    simp only
    rw [hh]
    have : os.any (fun x => x.1 == y.1 && N.reaches x.2.address dest) =
        N.reaches y.2.address dest := by
      cases hr : N.reaches y.2.address dest with
      | true => exact List.any_eq_true.mpr ⟨y, hy, by simp [hr]⟩
      | false =>
        rw [List.any_eq_false]
        intro z hz
        by_cases hzy : z.1 = y.1
        · have : z = y := eq_of_fst os h.nodup z hz y hy hzy
          rw [this, hr]
          simp
        · simp [hzy]
    rw [this]
    exact Obj.arrive_fits N dest d y.2 _ (h.fits y hy)
  · intro s hs hn
    rw [hfst] at hn
    rw [hh, hnot s hn]
    simpa using h.closed s hs hn
  · intro s hs
    have : s ∉ os.map Prod.fst := by
      intro hm
      obtain ⟨x, hx, he⟩ := List.mem_map.mp hm
      have := h.below x hx
      omega
    rw [hh, hnot s this]
    simpa using h.fresh s hs

/-! ## Every step keeps the invariant -/

/-- The invariant of a process. -/
def Node.Inv (N : Net) (n : Node) : Prop := NInv N n.objs n.log n.next

theorem Node.arrive_objs (N : Net) (n : Node) (dest : SocketAddr) (d : Datagram) :
    (n.arrive N dest d).objs = n.objs.map fun x => (x.1, x.2.arrive N dest d) := by
  simp only [Node.objs, objsOf, Node.arrive, List.map_append, List.map_map, List.map_flatMap, List.flatMap_map]
  congr 1
  · congr 1
    · congr 1
      · apply List.map_congr_left
        intro x _
        simp [Obj.arrive]
      · apply List.map_congr_left
        intro x _
        simp only [Function.comp, Obj.arrive, Obj.address]
        split <;> simp_all
    · congr 1
      funext x
      simp only [List.map_cons, List.map_nil, Obj.arrive_sender, Obj.arrive_receiver]
      by_cases hr : N.reaches x.receiverAddress dest = true <;> simp [hr]
  · apply List.map_congr_left
    intro x _
    simp only [Function.comp, Obj.arrive, Obj.address]
    split <;> simp_all

theorem Node.init_inv (N : Net) : Node.init.Inv N := by
  refine ⟨?_, ?_, ?_, ?_, ?_, ?_⟩ <;> simp [Node.init, Node.objs, objsOf, history]

theorem nodeBind_apart {N : Net} {n : Node} {req got : SocketAddr} (h : n.canBind N req got = true) :
    ∀ x ∈ n.objs, N.conflict got x.2.address = false := by
  intro x hx
  simp only [Node.canBind, Bool.and_eq_true, List.all_eq_true, Bool.not_eq_true', n.sockets_eq] at h
  exact h.2 (x.1, x.2.address) (List.mem_map_of_mem (f := fun x => (x.1, x.2.address)) hx)

theorem step_trace_extends (l : Listener) (s s' : NetState) (x : Label) (h : l.step s x = some s') :
    s.trace <+: s'.trace := by
  cases x <;> simp only [Listener.step] at h <;> (repeat' split at h) <;>
    simp only [Option.some.injEq, reduceCtorEq] at h <;> subst h <;> simp

section
variable {α : Type} (a a' b b' c c' d d' : List α) (x : α)

theorem mid1 : ((a ++ x :: a') ++ b ++ c ++ d).Perm (x :: ((a ++ a') ++ b ++ c ++ d)) := by
  simp

theorem mid2 : (a ++ (b ++ x :: b') ++ c ++ d).Perm (x :: (a ++ (b ++ b') ++ c ++ d)) := by
  simpa using List.perm_middle (a := x) (l₁ := a ++ b) (l₂ := b' ++ c ++ d)

theorem mid3 : (a ++ b ++ (c ++ x :: c') ++ d).Perm (x :: (a ++ b ++ (c ++ c') ++ d)) := by
  simpa using List.perm_middle (a := x) (l₁ := a ++ b ++ c) (l₂ := c' ++ d)

theorem mid4 : (a ++ b ++ c ++ (d ++ x :: d')).Perm (x :: (a ++ b ++ c ++ (d ++ d'))) := by
  simpa using List.perm_middle (a := x) (l₁ := a ++ b ++ c ++ d) (l₂ := d')

end

/-- The objects of an instance. -/
def OpenInstance.receiverObj (x : OpenInstance) : Nat × Obj :=
  (x.receiverSocket, .receiver x.receiverAddress x.queue x.ipv8.networkReceiver)
def OpenInstance.senderObj (x : OpenInstance) : Nat × Obj :=
  (x.sender.socket, .sender x.sender.address)

section
variable (S S' : List OpenSender) (R R' : List OpenReceiver) (I I' : List OpenInstance)
  (T T' : List Thread)

theorem objs_sender (x : OpenSender) : (objsOf (S ++ x :: S') R I T).Perm
    ((x.socket, .sender x.address) :: objsOf (S ++ S') R I T) := by
  simp only [objsOf, List.map_append, List.map_cons]
  exact mid1 ..

theorem objs_receiver (x : OpenReceiver) : (objsOf S (R ++ x :: R') I T).Perm
    ((x.socket, .receiver x.address x.queue x.net) :: objsOf S (R ++ R') I T) := by
  simp only [objsOf, List.map_append, List.map_cons]
  exact mid2 ..

theorem objs_instance (x : OpenInstance) : (objsOf S R (I ++ x :: I') T).Perm
    (x.receiverObj :: x.senderObj :: objsOf S R (I ++ I') T) := by
  simp only [objsOf, List.flatMap_append, List.flatMap_cons, List.cons_append, List.nil_append]
  exact (mid3 ..).trans (List.Perm.cons _ (mid3 ..))

theorem objs_thread (x : Thread) : (objsOf S R I (T ++ x :: T')).Perm
    ((x.socket, .thread x.address x.listener x.state) :: objsOf S R I (T ++ T')) := by
  simp only [objsOf, List.map_append, List.map_cons]
  exact mid4 ..

theorem objs_sender_end (x : OpenSender) : (objsOf (S ++ [x]) R I T).Perm
    ((x.socket, .sender x.address) :: objsOf S R I T) := by
  simpa using objs_sender S [] R I T x

theorem objs_receiver_end (x : OpenReceiver) : (objsOf S (R ++ [x]) I T).Perm
    ((x.socket, .receiver x.address x.queue x.net) :: objsOf S R I T) := by
  simpa using objs_receiver S R [] I T x

theorem objs_instance_end (x : OpenInstance) : (objsOf S R (I ++ [x]) T).Perm
    (x.receiverObj :: x.senderObj :: objsOf S R I T) := by
  simpa using objs_instance S R I [] T x

theorem objs_thread_end (x : Thread) : (objsOf S R I (T ++ [x])).Perm
    ((x.socket, .thread x.address x.listener x.state) :: objsOf S R I T) := by
  simpa using objs_thread S R I T [] x

end

theorem fits_register {a : SocketAddr} {q : List Datagram} {net : NetworkReceiver} (r : Receiver)
    (h : List NEv) (hf : (Obj.receiver a q net).Fits h) :
    (Obj.receiver a q (net.addReceiver r)).Fits (h ++ [.register r]) := by
  obtain ⟨⟨t, rfl, ht⟩, h1, h2⟩ := hf
  refine ⟨⟨t ++ [.register r], by simp, ?_⟩, ?_, ?_⟩
  · intro e he
    rcases List.mem_append.mp he with he | he
    · exact ht e he
    · exact .inr ⟨r, by simpa using he⟩
  · rw [arrivedIn_append, h1]; simp [arrivedIn]
  · rw [registeredIn_append, h2]; simp [registeredIn, NetworkReceiver.addReceiver]

theorem fits_send {a : SocketAddr} (dest : SocketAddr) (address : Address) (packet : Packet)
    (h : List NEv) (hf : (Obj.sender a).Fits h) :
    (Obj.sender a).Fits (h ++ [.send dest (NetworkSender.send a address packet)]) := by
  obtain ⟨t, rfl, ht⟩ := hf
  refine ⟨t ++ [.send dest (NetworkSender.send a address packet)], by simp, ?_⟩
  intro e he
  rcases List.mem_append.mp he with he | he
  · exact ht e he
  · exact .inr ⟨_, _, by simpa using he, rfl⟩

theorem fits_start {a : SocketAddr} {q : List Datagram} {net : NetworkReceiver} (b : Nat)
    (h : List NEv) (hf : (Obj.receiver a q net).Fits h) :
    (Obj.thread a ⟨net.receivers, b⟩ (Listener.init ⟨net.receivers, b⟩ q)).Fits (h ++ [.start b]) := by
  obtain ⟨⟨t, rfl, ht⟩, h1, h2⟩ := hf
  simp only [arrivedIn, registeredIn] at h1 h2
  refine ⟨t, b, [], ⟨t, rfl, ht⟩, by rw [h2], ?_, ?_⟩
  · rw [h1]; rfl
  · simp [observed]

theorem fits_thread {a : SocketAddr} {l : Listener} {s s' : NetState} {x : Label}
    (hx : l.step s x = some s') (ha : ∀ d, x ≠ .arrive d) (h : List NEv)
    (hf : (Obj.thread a l s).Fits h) :
    (Obj.thread a l s').Fits (h ++ (s'.trace.drop s.trace.length).map .net) := by
  obtain ⟨t, b, ls, h1, h2, h3, rfl⟩ := hf
  obtain ⟨g1, g2⟩ := observed_snoc l x ls _ s _ h3 hx
  refine ⟨t, b, ls ++ [x], h1, h2, g1, ?_⟩
  rw [g2]
  cases x <;> first | exact absurd rfl (ha _) | simp

theorem node_step (N : Net) (n n' : Node) (x : NLabel) (h : n.Inv N) (hs : n.step N x = some n') :
    n'.Inv N := by
  rcases n with ⟨next, senders, receivers, instances, threads, log⟩
  cases x with
  | newSender requested got =>
    simp only [Node.step] at hs
    split at hs
    · next hc =>
      simp only [Option.some.injEq] at hs
      subst hs
      exact NInv.add (o := .sender got) h (objs_sender_end _ _ _ _ ⟨next, got⟩).symm ⟨[], rfl, by simp⟩ (nodeBind_apart hc)
    · simp at hs
  | newReceiver requested got =>
    simp only [Node.step] at hs
    split at hs
    · next hc =>
      simp only [Option.some.injEq] at hs
      subst hs
      exact NInv.add (o := .receiver got [] NetworkReceiver.new) h
        (objs_receiver_end _ _ _ _ ⟨next, got, [], NetworkReceiver.new⟩).symm
        ⟨⟨[], rfl, by simp⟩, rfl, rfl⟩ (nodeBind_apart hc)
    · simp at hs
  | newInstance config gotReceiver gotSender =>
    simp only [Node.step] at hs
    split at hs
    · next hc =>
      simp only [Bool.and_eq_true, Bool.not_eq_true'] at hc
      simp only [Option.some.injEq] at hs
      subst hs
      have h1 := NInv.add (o := .receiver gotReceiver [] NetworkReceiver.new)
        (e := .bind .receiver gotReceiver) h (List.Perm.refl _)
        ⟨⟨[], rfl, by simp⟩, rfl, rfl⟩ (nodeBind_apart hc.1.1)
      have h2 := NInv.add (o := .sender gotSender) (e := .bind .sender gotSender) h1
        (List.Perm.refl _) ⟨[], rfl, by simp⟩ (by
          intro x hx
          rcases List.mem_cons.mp hx with rfl | hx
          · exact hc.2
          · exact nodeBind_apart hc.1.2 x hx)
      simp only [Node.Inv]
      rw [show log ++ [(next, NEv.bind .receiver gotReceiver), (next + 1, .bind .sender gotSender)] =
        log ++ [(next, NEv.bind .receiver gotReceiver)] ++ [(next + 1, .bind .sender gotSender)] by simp]
      refine h2.perm ?_
      exact (List.Perm.swap _ _ _).trans (objs_instance_end _ _ _ _
        ⟨⟨config, NetworkReceiver.new, config.sendingAddress, CommunityRegistry.default⟩, next, gotReceiver,
          [], ⟨next + 1, gotSender⟩⟩).symm
    · simp at hs
  | addReceiver k r =>
    simp only [Node.step] at hs
    split at hs
    · next x hx =>
      simp only [Option.some.injEq] at hs
      subst hs
      obtain ⟨p, q, rfl, hset, -, -⟩ := split_at hx
      simp only [Node.Inv, hset]
      exact NInv.change [.register r] h (objs_receiver ..)
        (objs_receiver _ _ _ _ _ { x with net := x.net.addReceiver r }).symm rfl (fits_register r)
    · simp at hs
  | setup i s =>
    simp only [Node.step] at hs
    split at hs
    · next x hx =>
      simp only [Option.some.injEq] at hs
      subst hs
      obtain ⟨p, q, rfl, hset, -, -⟩ := split_at hx
      simp only [Node.Inv, hset]
      cases s with
      | addCommunity c =>
        simp only [List.append_nil]
        exact h.perm ((objs_instance ..).trans
          (objs_instance _ _ _ _ _ { x with ipv8 := x.ipv8.setup (.addCommunity c) }).symm)
      | addReceiver r =>
        exact NInv.change [.register r] h (objs_instance ..)
          (objs_instance _ _ _ _ _ { x with ipv8 := x.ipv8.setup (.addReceiver r) }).symm rfl
          (fits_register r)
    · simp at hs
  | send k address packet =>
    simp only [Node.step] at hs
    split at hs
    · next x hx =>
      simp only [Option.some.injEq] at hs
      subst hs
      obtain ⟨p, q, rfl, -, -, -⟩ := split_at hx
      exact NInv.change [.send address.sock (NetworkSender.send x.address address packet)] h
        (objs_sender ..) (objs_sender ..).symm rfl (fits_send _ _ _)
    · simp at hs
  | sendInstance i address packet =>
    simp only [Node.step] at hs
    split at hs
    · next x hx =>
      simp only [Option.some.injEq] at hs
      subst hs
      obtain ⟨p, q, rfl, -, -, -⟩ := split_at hx
      have hp := (objs_instance senders receivers p q threads x).trans (List.Perm.swap _ _ _)
      exact NInv.change (s := x.sender.socket) (o := .sender x.sender.address)
        (o' := .sender x.sender.address)
        [.send address.sock (NetworkSender.send x.sender.address address packet)] h hp hp.symm rfl
        (fits_send _ _ _)
    · simp at hs
  | takeApart i =>
    simp only [Node.step] at hs
    split at hs
    · next x hx =>
      simp only [Option.some.injEq] at hs
      subst hs
      obtain ⟨p, q, rfl, -, her, -⟩ := split_at hx
      simp only [Node.Inv, her]
      refine h.perm ((objs_instance ..).trans ?_)
      exact ((objs_receiver_end _ _ _ _
        ⟨x.receiverSocket, x.receiverAddress, x.queue, x.ipv8.networkReceiver⟩).trans
        (List.Perm.cons _ (objs_sender_end _ _ _ _ x.sender))).symm
    · simp at hs
  | assemble config communities k j =>
    simp only [Node.step] at hs
    split at hs
    · next r x hr hx =>
      simp only [Option.some.injEq] at hs
      subst hs
      obtain ⟨p, q, rfl, -, her, -⟩ := split_at hr
      obtain ⟨p', q', rfl, -, her', -⟩ := split_at hx
      simp only [Node.Inv, her, her']
      refine h.perm (List.Perm.trans ?_ (objs_instance_end _ _ _ _
        ⟨⟨config, r.net, ⟨x.address⟩, communities⟩, r.socket, r.address, r.queue, x⟩).symm)
      exact (objs_receiver ..).trans (List.Perm.cons _ (objs_sender ..))
    · simp at hs
  | startReceiver k config =>
    simp only [Node.step] at hs
    split at hs
    · next x hx =>
      simp only [Option.some.injEq] at hs
      subst hs
      obtain ⟨p, q, rfl, -, her, -⟩ := split_at hx
      simp only [Node.Inv, her]
      exact NInv.change [.start config.buffersize] h (objs_receiver ..)
        (objs_thread_end _ _ _ _ ⟨x.socket, x.address, ⟨x.net.receivers, config.buffersize⟩,
          Listener.init ⟨x.net.receivers, config.buffersize⟩ x.queue⟩).symm rfl
        (fits_start _)
    · simp at hs
  | startInstance i =>
    simp only [Node.step] at hs
    split at hs
    · next x hx =>
      simp only [Option.some.injEq] at hs
      subst hs
      obtain ⟨p, q, rfl, -, her, -⟩ := split_at hx
      simp only [Node.Inv, her]
      rw [show log ++ [(x.receiverSocket, NEv.start x.ipv8.start.buffersize), (x.sender.socket, .close)] =
        log ++ [(x.receiverSocket, NEv.start x.ipv8.start.buffersize)] ++ [(x.sender.socket, .close)] by simp]
      have h1 := NInv.change (o' := .thread x.receiverAddress x.ipv8.start (x.ipv8.start.init x.queue))
        [.start x.ipv8.start.buffersize] h (objs_instance ..) (List.Perm.refl _) rfl (fits_start _)
      refine NInv.close h1 ((List.Perm.swap _ _ _).trans (List.Perm.cons _ ?_))
      exact (objs_thread_end _ _ _ _ ⟨x.receiverSocket, x.receiverAddress, x.ipv8.start,
          x.ipv8.start.init x.queue⟩).symm
    · simp at hs
  | dropSender k =>
    simp only [Node.step] at hs
    split at hs
    · next x hx =>
      simp only [Option.some.injEq] at hs
      subst hs
      obtain ⟨p, q, rfl, -, her, -⟩ := split_at hx
      simp only [Node.Inv, her]
      exact NInv.close h (objs_sender ..)
    · simp at hs
  | dropReceiver k =>
    simp only [Node.step] at hs
    split at hs
    · next x hx =>
      simp only [Option.some.injEq] at hs
      subst hs
      obtain ⟨p, q, rfl, -, her, -⟩ := split_at hx
      simp only [Node.Inv, her]
      exact NInv.close h (objs_receiver ..)
    · simp at hs
  | dropInstance i =>
    simp only [Node.step] at hs
    split at hs
    · next x hx =>
      simp only [Option.some.injEq] at hs
      subst hs
      obtain ⟨p, q, rfl, -, her, -⟩ := split_at hx
      simp only [Node.Inv, her]
      rw [show log ++ [(x.receiverSocket, NEv.close), (x.sender.socket, .close)] =
        log ++ [(x.receiverSocket, NEv.close)] ++ [(x.sender.socket, .close)] by simp]
      exact NInv.close (NInv.close h (objs_instance ..)) (List.Perm.refl _)
    · simp at hs
  | arrive dest d =>
    simp only [Node.step, Option.some.injEq] at hs
    subst hs
    have := NInv.arrive h dest d
    simp only [Node.Inv]
    rw [Node.arrive_objs]
    simp only [Node.arrive, Node.sockets_eq, List.filter_map, List.map_map, Function.comp_def]
    exact this
  | thread t x =>
    simp only [Node.step] at hs
    split at hs
    · next y hy =>
      split at hs
      · simp at hs
      · next hx =>
        split at hs
        · next s' hstep =>
          simp only [Option.some.injEq] at hs
          subst hs
          obtain ⟨p, q, rfl, hset, -, -⟩ := split_at hy
          simp only [Node.Inv, hset]
          have := NInv.change ((s'.trace.drop y.state.trace.length).map .net) h (objs_thread ..)
            (objs_thread senders receivers instances p q { y with state := s' }).symm rfl
            (fits_thread hstep hx)
          simpa [Function.comp_def] using this
        · simp at hs
    · simp at hs
  | reap t =>
    simp only [Node.step] at hs
    split at hs
    · next y hy =>
      split at hs
      · simp only [Option.some.injEq] at hs
        subst hs
        obtain ⟨p, q, rfl, -, her, -⟩ := split_at hy
        simp only [Node.Inv, her]
        exact NInv.close h (objs_thread ..)
      · simp at hs
    · simp at hs

theorem node_run (N : Net) : ∀ (ls : List NLabel) (n n' : Node), n.Inv N → n.run N ls = some n' →
    n'.Inv N := by
  intro ls
  induction ls with
  | nil => intro n n' h hr; simp only [Node.run, Option.some.injEq] at hr; exact hr ▸ h
  | cons x ls ih =>
    intro n n' h hr
    simp only [Node.run] at hr
    split at hr
    · next n1 hs => exact ih n1 n' (node_step N n n1 x h hs) hr
    · simp at hr

/-! ## Executions of a listening thread and what is seen of them -/

theorem step_trace_grows (l : Listener) (s s' : NetState) (x : Label) (h : l.step s x = some s') :
    ∃ es, s'.trace = s.trace ++ es ∧ es.length ≤ 1 ∧ ((∃ d, x = .arrive d) → es = []) := by
  cases x <;> simp only [Listener.step] at h <;> (repeat' split at h) <;>
    simp only [Option.some.injEq, reduceCtorEq] at h <;> subst h <;>
    first
      | (refine ⟨[], ?_, ?_, ?_⟩ <;> simp; done)
      | (refine ⟨[_], rfl, ?_, ?_⟩ <;> simp; done)

theorem observed_facts (l : Listener) : ∀ (ls : List Label) (s0 s : NetState), l.run s0 ls = some s →
    s.trace = s0.trace ++ threadIn (observed l s0 ls) ∧ arrivedIn (observed l s0 ls) = arrivals ls ∧
    registeredIn (observed l s0 ls) = [] ∧ (∀ b, NEv.start b ∉ observed l s0 ls) ∧
    (∀ e ∈ observed l s0 ls, (∃ d, e = .arrive d) ∨ ∃ x, e = .net x) := by
  intro ls
  induction ls with
  | nil =>
    intro s0 s h
    simp only [Listener.run, Option.some.injEq] at h
    subst h
    simp [observed, threadIn, arrivedIn, registeredIn, arrivals]
  | cons x ls ih =>
    intro s0 s h
    simp only [Listener.run] at h
    cases hx : l.step s0 x with
    | none => rw [hx] at h; simp at h
    | some s1 =>
      rw [hx] at h
      obtain ⟨h1, h2, h3, h4, h5⟩ := ih s1 s h
      obtain ⟨es, he, hlen, hes⟩ := step_trace_grows l s0 s1 x hx
      have hd : s1.trace.drop s0.trace.length = es := by rw [he]; simp
      by_cases ha : ∃ d, x = .arrive d
      · obtain ⟨d, rfl⟩ := ha
        have hes := hes ⟨d, rfl⟩
        subst hes
        simp only [observed, hx, threadIn, arrivedIn, registeredIn, arrivals, List.mem_cons]
        refine ⟨by rw [h1, he]; simp, by rw [h2], h3, ?_, ?_⟩
        · intro b hb
          rcases hb with hb | hb
          · simp at hb
          · exact h4 b hb
        · rintro e (rfl | he)
          · exact .inl ⟨d, rfl⟩
          · exact h5 e he
      · have hobs : observed l s0 (x :: ls) = es.map .net ++ observed l s1 ls := by
          cases x <;> first | exact absurd ⟨_, rfl⟩ ha | simp only [observed, hx, hd]
        have harr : arrivals (x :: ls) = arrivals ls := by
          cases x <;> first | exact absurd ⟨_, rfl⟩ ha | rfl
        rw [hobs, harr, threadIn_append, arrivedIn_append, registeredIn_append, threadIn_net, arrivedIn_net,
          registeredIn_net, h1, h2, h3, he]
        refine ⟨by simp, by simp, rfl, ?_, ?_⟩
        · intro b hb
          rcases List.mem_append.mp hb with hb | hb
          · simp at hb
          · exact h4 b hb
        · intro e hm
          rcases List.mem_append.mp hm with hm | hm
          · obtain ⟨y, _, rfl⟩ := List.mem_map.mp hm
            exact .inr ⟨y, rfl⟩
          · exact h5 e hm

theorem observed_split (l : Listener) (e : NEv) : ∀ (ls : List Label) (s0 s : NetState) (A B : List NEv),
    l.run s0 ls = some s → observed l s0 ls = A ++ e :: B →
    ∃ ls1 s1, l.run s0 ls1 = some s1 ∧ observed l s0 ls1 = A ++ [e] := by
  intro ls
  induction ls with
  | nil => intro s0 s A B _ h; simp [observed] at h
  | cons x ls ih =>
    intro s0 s A B h ho
    simp only [Listener.run] at h
    cases hx : l.step s0 x with
    | none => rw [hx] at h; simp at h
    | some s1 =>
      rw [hx] at h
      obtain ⟨es, he, hlen, hes⟩ := step_trace_grows l s0 s1 x hx
      have hd : s1.trace.drop s0.trace.length = es := by rw [he]; simp
      -- the events of this step
      have hstep : ∃ fs : List NEv, fs.length ≤ 1 ∧ ∀ ls, observed l s0 (x :: ls) = fs ++ observed l s1 ls := by
        by_cases ha : ∃ d, x = .arrive d
        · obtain ⟨d, rfl⟩ := ha
          exact ⟨[.arrive d], by simp, fun ls => by simp [observed, hx]⟩
        · refine ⟨es.map .net, by simpa using hlen, fun ls => ?_⟩
          cases x <;> first | exact absurd ⟨_, rfl⟩ ha | simp only [observed, hx, hd]
      obtain ⟨fs, hf, hob⟩ := hstep
      rw [hob] at ho
      have hin : ∀ A', A = fs ++ A' → observed l s1 ls = A' ++ e :: B →
          ∃ ls1 s1, l.run s0 ls1 = some s1 ∧ observed l s0 ls1 = A ++ [e] := by
        intro A' hA' h'
        obtain ⟨ls1, s2, h1, h2⟩ := ih s1 s A' B h h'
        refine ⟨x :: ls1, s2, by simp [Listener.run, hx, h1], ?_⟩
        rw [hob, h2, hA', List.append_assoc]
      match fs, hf with
      | [], _ => exact hin A rfl (by simpa using ho)
      | [f], _ =>
        cases A with
        | nil =>
          simp only [List.singleton_append, List.nil_append, List.cons.injEq] at ho
          refine ⟨[x], s1, by simp [Listener.run, hx], ?_⟩
          rw [hob]
          simp [observed, ho.1]
        | cons a A =>
          simp only [List.cons_append, List.cons.injEq] at ho
          exact hin A (by simp [ho.1]) ho.2

end Ipv8
