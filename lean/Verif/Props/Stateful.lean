import Verif.Model.Stateful
import Verif.Props.Community
/-!
# C77: communities do not disturb each other
-/

namespace Ipv8
open Spec

variable {σ : Type}

/-! ## Specification -/

/-- Has this call anything to do with the mid `m`?  Registering a community under `m` has, and so does a
packet with `m` behind its two version bytes. -/
def AppEv.concerns (m : Bytes) : AppEv σ → Bool
  | .add c => c.mid == m
  | .forward p _ => (p.bytes.drop 2).take 20 == m

/-- Objects have names of their own. -/
def OneNameEach (cs : List (StatefulCommunity σ)) : Prop :=
  ∀ c ∈ cs, ∀ c' ∈ cs, c.id = c'.id → c = c'

/-- The objects added in a history, in order. -/
def addedIn : List (AppEv σ) → List (StatefulCommunity σ)
  | [] => []
  | .add c :: es => c :: addedIn es
  | .forward _ _ :: es => addedIn es

/-- The object registered under `mid`: the last one added with it. -/
def lastAdded (mid : Bytes) (cs : List (StatefulCommunity σ)) : Option (StatefulCommunity σ) :=
  (cs.filter (fun c => c.mid == mid)).getLast?

/-- The type of the message to the community `mid` that this packet is, if it is one: two version bytes,
the mid, a type that is not reserved. -/
def messageFor (mid : Bytes) (p : Packet) : Option UInt8 :=
  if mid.length = 20 ∧ p.bytes.take 22 = [0, 2] ++ mid then
    match p.bytes[22]? with
    | some t => if reserved t then none else some t
    | none => none
  else none

/-- The messages to the community `mid` in a history, in order. -/
def inbox (mid : Bytes) : List (AppEv σ) → List (UInt8 × Packet × Address)
  | [] => []
  | .add _ :: es => inbox mid es
  | .forward p a :: es =>
    match messageFor mid p with
    | some t => (t, p, a) :: inbox mid es
    | none => inbox mid es

/-! ## Proofs -/

theorem messageFor_iff (mid : Bytes) (p : Packet) (t : UInt8) :
    messageFor mid p = some t ↔ HasHeader p mid t ∧ reserved t = false := by
  unfold messageFor
  constructor
  · intro h
    split at h
    case isFalse => cases h
    next hc =>
    split at h
    case h_2 => cases h
    next t' ht =>
    split at h
    · cases h
    · next hr =>
      cases h
      refine ⟨⟨hc.1, p.bytes.drop 23, ?_⟩, by simpa using hr⟩
      obtain ⟨hlt, hget⟩ := List.getElem?_eq_some_iff.mp ht
      have e1 : p.bytes.drop 22 = t :: p.bytes.drop 23 := by
        rw [← hget]; exact List.drop_eq_getElem_cons hlt
      conv => lhs; rw [← List.take_append_drop 22 p.bytes, hc.2, e1]
      simp [Spec.header]
  · rintro ⟨⟨hl, rest, hb⟩, hr⟩
    have h1 : p.bytes = ([0, 2] ++ mid) ++ (t :: rest) := by rw [hb]; simp [Spec.header]
    have h2 : ([0, 2] ++ mid : Bytes).length = 22 := by simp [hl]
    rw [if_pos ⟨hl, by rw [h1, ← h2]; exact List.take_left⟩]
    have h3 : p.bytes[22]? = some t := by
      rw [h1, List.getElem?_append_right (by omega), h2]; rfl
    rw [h3]
    simp [hr]

theorem App.registry_eq (s : App σ) : s.registry = registered (s.added.map (·.now s.state)) := by
  simp [App.registry, registered, List.foldl_map]

theorem lastWith_now (mid : Bytes) (cs : List (StatefulCommunity σ)) (st : Nat → σ) :
    lastWith mid (cs.map (·.now st)) = (lastAdded mid cs).map (·.now st) := by
  simp only [lastWith, lastAdded, List.filter_map, List.getLast?_map]
  rfl

theorem lastAdded_mem {mid : Bytes} {cs : List (StatefulCommunity σ)} {c : StatefulCommunity σ}
    (h : lastAdded mid cs = some c) : c ∈ cs ∧ c.mid = mid := by
  have := List.mem_of_getLast? h
  simpa using this

theorem lastAdded_filter (mid : Bytes) (cs : List (StatefulCommunity σ)) :
    lastAdded mid (cs.filter (fun c => c.mid == mid)) = lastAdded mid cs := by
  simp [lastAdded]

theorem App.after_eq {s : App σ} (hn : OneNameEach s.added) {c : StatefulCommunity σ} (hc : c ∈ s.added)
    (h : Header) (d : PacketDeserializer) (a : Address) :
    s.after ⟨c.id, h, d, a⟩ =
      fun i => if i = c.id then (c.onReceive (s.state c.id) h d a).2 else s.state i := by
  unfold App.after
  cases hf : s.added.find? (fun c' => c'.id == c.id) with
  | none =>
    rw [List.find?_eq_none] at hf
    exact absurd (beq_self_eq_true _) (hf c hc)
  | some c' =>
    have h1 := List.mem_of_find?_eq_some hf
    have h2 : c'.id = c.id := by simpa using List.find?_some hf
    have h3 := hn c' h1 c hc h2
    subst h3
    funext i
    simp only
    split
    · next h => rw [h]
    · rfl

/-- What forwarding does, completely. -/
theorem App.forward_eq (s : App σ) (hn : OneNameEach s.added) (p : Packet) (a : Address) (mid : Bytes)
    (t : UInt8) (h : HasHeader p mid t) :
    s.step (.forward p a) =
      match lastAdded mid s.added with
      | none => ((.err .unknownCommunity, [], []), s)
      | some c =>
        match deprecatedMessages.lookup t.toUInt64 with
        | some m => (warnDeprecated m a, s)
        | none => (((c.onReceive (s.state c.id) (Header.ofMid mid t) p.startDeserialize a).1,
            [⟨c.id, Header.ofMid mid t, p.startDeserialize, a⟩], []),
          { s with state := fun i =>
              if i = c.id then (c.onReceive (s.state c.id) (Header.ofMid mid t) p.startDeserialize a).2
              else s.state i }) := by
  simp only [App.step, App.registry_eq, forwardLogged_eq _ p a mid t h, lastWith_now]
  cases hl : lastAdded mid s.added with
  | none => rfl
  | some c =>
    simp only [Option.map_some]
    cases hd : deprecatedMessages.lookup t.toUInt64 with
    | some m => rfl
    | none =>
      simp only [List.foldl_cons, List.foldl_nil]
      have := App.after_eq hn (lastAdded_mem hl).1 (Header.ofMid mid t) p.startDeserialize a
      simp only [StatefulCommunity.now, this]

theorem App.forward_err (s : App σ) (p : Packet) (a : Address) (e : Error)
    (h : p.startDeserialize.peekHeader = .err e) :
    s.step (.forward p a) = ((.err e, [], []), s) := by
  simp [App.step, CommunityRegistry.forwardLogged, h]

theorem hasHeader_slice {p : Packet} {mid : Bytes} {t : UInt8} (h : HasHeader p mid t) :
    (p.bytes.drop 2).take 20 = mid := by
  obtain ⟨hl, rest, hb⟩ := h
  rw [hb]
  simp [Spec.header, hl]

theorem App.step_added (s : App σ) (e : AppEv σ) : (s.step e).2.added = s.added ++ addedIn [e] := by
  cases e with
  | add c => rfl
  | forward p a =>
    simp only [App.step, addedIn, List.append_nil]
    generalize (s.registry.forwardLogged p a).2.1 = cs
    induction cs generalizing s with
    | nil => rfl
    | cons c cs ih => rw [List.foldl_cons, ih]

/-- C77. One call.  A message changes the state of at most one object: the one registered last under the
mid of its header, if the message type is not a reserved one; that object is called once, with its current
state, its new state is what it says, and its result is the result.  Otherwise no state changes and no
object is called.  Registering changes no state. -/
theorem C77_step (s : App σ) (hn : OneNameEach s.added) :
    (∀ c, (s.step (.add c)).2.state = s.state) ∧
    ∀ p a,
      (∃ mid t c, HasHeader p mid t ∧ reserved t = false ∧ lastAdded mid s.added = some c ∧
        (s.step (.forward p a)).1 = ((c.onReceive (s.state c.id) (Header.ofMid mid t) ⟨p, 0⟩ a).1,
          [⟨c.id, Header.ofMid mid t, ⟨p, 0⟩, a⟩], []) ∧
        (s.step (.forward p a)).2.state c.id =
          (c.onReceive (s.state c.id) (Header.ofMid mid t) ⟨p, 0⟩ a).2 ∧
        ∀ i, i ≠ c.id → (s.step (.forward p a)).2.state i = s.state i) ∨
      ((∀ mid t c, HasHeader p mid t → lastAdded mid s.added = some c → reserved t = true) ∧
        (s.step (.forward p a)).1.2.1 = [] ∧ (s.step (.forward p a)).2.state = s.state) := by
  refine ⟨fun c => rfl, fun p a => ?_⟩
  rcases hasHeader_or p with ⟨mid, t, hh⟩ | ⟨e, he⟩
  · rw [App.forward_eq s hn p a mid t hh]
    have huniq : ∀ mid' t', HasHeader p mid' t' → mid' = mid ∧ t' = t := by
      intro mid' t' h'
      have h1 := peek_of_hasHeader hh
      rw [peek_of_hasHeader h'] at h1
      have h2 := Outcome.ok.inj h1
      have h3 := congrArg Header.midHash h2
      have h4 := congrArg Header.messageType h2
      simp only [Header.ofMid, Option.some.injEq] at h3 h4
      exact ⟨h3, UInt8.toNat_inj.mp (by simpa using congrArg UInt64.toNat h4)⟩
    cases hl : lastAdded mid s.added with
    | none =>
      right
      refine ⟨fun mid' t' c' h' hc' => ?_, rfl, rfl⟩
      rw [(huniq mid' t' h').1, hl] at hc'
      cases hc'
    | some c =>
      have hr := reserved_iff t
      cases hd : deprecatedMessages.lookup t.toUInt64 with
      | some m =>
        right
        rw [hd] at hr
        refine ⟨fun mid' t' c' h' _ => ?_, rfl, rfl⟩
        rw [(huniq mid' t' h').2]
        exact hr.mp rfl
      | none =>
        left
        rw [hd] at hr
        refine ⟨mid, t, c, hh, ?_, hl, rfl, by simp; rfl, ?_⟩
        · cases hx : reserved t with
          | false => rfl
          | true => rw [hx] at hr; simp at hr
        · intro i hi
          simp [hi]
  · right
    rw [App.forward_err s p a e he]
    refine ⟨fun mid t c h' _ => ?_, rfl, rfl⟩
    rw [peek_of_hasHeader h'] at he
    cases he

/-- The two runs of `C77` agree on what concerns `m`. -/
private structure Agree (m : Bytes) (s s' : App σ) : Prop where
  added : s'.added = s.added.filter (fun c => c.mid == m)
  state : ∀ i, (∀ c ∈ s.added, c.id = i → c.mid = m) → s.state i = s'.state i

private theorem agree_step (m : Bytes) (s s' : App σ) (e : AppEv σ) (hn : OneNameEach (s.added ++ addedIn [e]))
    (h : Agree m s s') :
    (e.concerns m = true → (s.step e).1 = (s'.step e).1 ∧ Agree m (s.step e).2 (s'.step e).2) ∧
    (e.concerns m = false → Agree m (s.step e).2 s') := by
  have hns : OneNameEach s.added := fun c hc c' hc' =>
    hn c (List.mem_append_left _ hc) c' (List.mem_append_left _ hc')
  have hns' : OneNameEach s'.added := by
    rw [h.added]
    exact fun c hc c' hc' => hns c (List.mem_filter.mp hc).1 c' (List.mem_filter.mp hc').1
  cases e with
  | add c =>
    constructor
    · intro hc
      refine ⟨rfl, ?_, ?_⟩
      · simp only [App.step, h.added, List.filter_append]
        simp only [AppEv.concerns] at hc
        simp [hc]
      · intro i hi
        exact h.state i (fun c' hc' => hi c' (List.mem_append_left _ hc'))
    · intro hc
      refine ⟨?_, ?_⟩
      · simp only [App.step, h.added, List.filter_append]
        simp only [AppEv.concerns] at hc
        simp [hc]
      · intro i hi
        exact h.state i (fun c' hc' => hi c' (List.mem_append_left _ hc'))
  | forward p a =>
    rcases hasHeader_or p with ⟨mid, t, hh⟩ | ⟨e, he⟩
    · have hs := hasHeader_slice hh
      rw [App.forward_eq s hns p a mid t hh, App.forward_eq s' hns' p a mid t hh]
      simp only [AppEv.concerns, hs, beq_iff_eq, beq_eq_false_iff_ne]
      constructor
      · rintro rfl
        rw [h.added, lastAdded_filter]
        cases hl : lastAdded mid s.added with
        | none => exact ⟨rfl, h⟩
        | some c =>
          cases hd : deprecatedMessages.lookup t.toUInt64 with
          | some w => exact ⟨rfl, h⟩
          | none =>
            obtain ⟨hc1, hc2⟩ := lastAdded_mem hl
            have hst : s.state c.id = s'.state c.id :=
              h.state c.id (fun c' hc' hid => by rw [hns c' hc' c hc1 hid]; exact hc2)
            simp only [hst, true_and]
            refine ⟨rfl, ?_⟩
            intro i hi
            simp only
            split
            · rfl
            · exact h.state i hi
      · intro hne
        cases hl : lastAdded mid s.added with
        | none => exact h
        | some c =>
          cases hd : deprecatedMessages.lookup t.toUInt64 with
          | some w => exact h
          | none =>
            obtain ⟨hc1, hc2⟩ := lastAdded_mem hl
            refine ⟨h.added, ?_⟩
            intro i hi
            simp only
            rw [if_neg]
            · exact h.state i hi
            · intro e
              exact hne (hc2 ▸ hi c hc1 e.symm)
    · rw [App.forward_err s p a e he, App.forward_err s' p a e he]
      exact ⟨fun _ => ⟨rfl, h⟩, fun _ => h⟩

/-- C77. Communities do not disturb each other: in any history of registrations and messages, what happens
to the objects with mid `m` is what would happen if all registrations and messages with other mids were left
out: same results, same callbacks, same log lines, and the same states at the end.  Whatever the other
communities do with their messages: return errors, panic, or change their state. -/
theorem C77 (m : Bytes) (initial : Nat → σ) (es : List (AppEv σ)) (hn : OneNameEach (addedIn es)) :
    let full := App.run ⟨[], initial⟩ es
    let part := App.run ⟨[], initial⟩ (es.filter (·.concerns m))
    full.1.filter (fun x => x.1.concerns m) = part.1 ∧
    ∀ c, .add c ∈ es → c.mid = m → full.2.state c.id = part.2.state c.id := by
  have key : ∀ (es : List (AppEv σ)) (s s' : App σ), OneNameEach (s.added ++ addedIn es) → Agree m s s' →
      ((s.run es).1.filter (fun x => x.1.concerns m) = (s'.run (es.filter (·.concerns m))).1 ∧
        Agree m (s.run es).2 (s'.run (es.filter (·.concerns m))).2 ∧
        (s.run es).2.added = s.added ++ addedIn es) := by
    intro es
    induction es with
    | nil => intro s s' _ h; exact ⟨rfl, h, by simp [App.run, addedIn]⟩
    | cons e es ih =>
      intro s s' hn h
      have hsplit : addedIn (e :: es) = addedIn [e] ++ addedIn es := by cases e <;> rfl
      rw [hsplit, ← List.append_assoc] at hn
      obtain ⟨h1, h2⟩ := agree_step m s s' e
        (fun c hc c' hc' => hn c (List.mem_append_left _ hc) c' (List.mem_append_left _ hc')) h
      have hn' : OneNameEach ((s.step e).2.added ++ addedIn es) := by rw [App.step_added]; exact hn
      rw [hsplit]
      cases hc : e.concerns m with
      | true =>
        obtain ⟨ha, hb⟩ := h1 hc
        obtain ⟨i1, i2, i3⟩ := ih _ _ hn' hb
        rw [List.filter_cons_of_pos (by simpa using hc)]
        simp only [App.run]
        refine ⟨?_, i2, by rw [i3, App.step_added, List.append_assoc]⟩
        rw [List.filter_cons_of_pos (by simpa using hc), i1, ha]
      | false =>
        obtain ⟨i1, i2, i3⟩ := ih _ _ hn' (h2 hc)
        rw [List.filter_cons_of_neg (by simp [hc])]
        simp only [App.run]
        refine ⟨?_, i2, by rw [i3, App.step_added, List.append_assoc]⟩
        rw [List.filter_cons_of_neg (by simp [hc]), i1]
  intro full part
  obtain ⟨k1, k2, k3⟩ := key es ⟨[], initial⟩ ⟨[], initial⟩ (by simpa using hn) ⟨rfl, fun _ _ => rfl⟩
  refine ⟨k1, fun c hc hm => k2.state c.id ?_⟩
  intro c' hc' hid
  rw [k3, List.nil_append] at hc'
  have hmem : c ∈ addedIn es := by
    clear k1 k2 k3 hn hc' full part
    induction es with
    | nil => cases hc
    | cons e es ih =>
      cases e with
      | add c0 =>
        rcases List.mem_cons.mp hc with h | h
        · cases h; exact List.mem_cons_self
        · exact List.mem_cons_of_mem _ (ih h)
      | forward p a =>
        rcases List.mem_cons.mp hc with h | h
        · cases h
        · exact ih h
  rw [hn c' hc' c hmem hid]
  exact hm

/-- C77. So the state of a community is what its own messages make of it, one after the other, in the order
of the calls: packets with its mid and a type that is not reserved, and nothing else. -/
theorem C77_fold (c : StatefulCommunity σ) (initial : Nat → σ) (es : List (AppEv σ))
    (hn : OneNameEach (c :: addedIn es)) (honly : ∀ c', .add c' ∈ es → c'.mid ≠ c.mid) :
    (App.run ⟨[], initial⟩ (.add c :: es)).2.state c.id =
      (inbox c.mid es).foldl
        (fun state x => (c.onReceive state (Header.ofMid c.mid x.1) ⟨x.2.1, 0⟩ x.2.2).2)
        (initial c.id) := by
  have key : ∀ (es : List (AppEv σ)) (s : App σ), OneNameEach (s.added ++ addedIn es) →
      lastAdded c.mid s.added = some c → (∀ c', .add c' ∈ es → c'.mid ≠ c.mid) →
      (s.run es).2.state c.id = (inbox c.mid es).foldl
        (fun state x => (c.onReceive state (Header.ofMid c.mid x.1) ⟨x.2.1, 0⟩ x.2.2).2)
        (s.state c.id) := by
    intro es
    induction es with
    | nil => intro s _ _ _; rfl
    | cons e es ih =>
      intro s hn hl ho
      have hsplit : addedIn (e :: es) = addedIn [e] ++ addedIn es := by cases e <;> rfl
      rw [hsplit, ← List.append_assoc] at hn
      have hn' : OneNameEach ((s.step e).2.added ++ addedIn es) := by rw [App.step_added]; exact hn
      have hns : OneNameEach s.added := fun c hc c' hc' =>
        hn c (List.mem_append_left _ (List.mem_append_left _ hc)) c'
          (List.mem_append_left _ (List.mem_append_left _ hc'))
      have hl' : lastAdded c.mid (s.step e).2.added = some c := by
        rw [App.step_added]
        cases e with
        | add c' =>
          have : (c'.mid == c.mid) = false := by simpa using ho c' List.mem_cons_self
          simp only [lastAdded, List.filter_append, addedIn] at hl ⊢
          simpa [this] using hl
        | forward p a => simpa [addedIn] using hl
      have hi := ih (s.step e).2 hn' hl' (fun c' h => ho c' (List.mem_cons_of_mem _ h))
      simp only [App.run]
      rw [hi]
      cases e with
      | add c' => rfl
      | forward p a =>
        rcases (C77_step s hns).2 p a with ⟨mid, t, c', hh, hr, hc', -, h1, h2⟩ | ⟨h1, -, h3⟩
        · by_cases hm : mid = c.mid
          · subst hm
            rw [hl] at hc'
            cases hc'
            have := (messageFor_iff c.mid p t).mpr ⟨hh, hr⟩
            simp only [inbox, this, List.foldl_cons]
            rw [h1]
          · have hcm := lastAdded_mem hc'
            have hcc := lastAdded_mem hl
            have hne : c.id ≠ c'.id := by
              intro e
              have := hns c hcc.1 c' hcm.1 e
              exact hm (by rw [← hcm.2, this])
            have hmf : messageFor c.mid p = none := by
              cases hx : messageFor c.mid p with
              | none => rfl
              | some t' =>
                have h4 := hasHeader_slice ((messageFor_iff _ _ _).mp hx).1
                rw [hasHeader_slice hh] at h4
                exact absurd h4 hm
            simp only [inbox, hmf]
            rw [h2 c.id hne]
        · have hmf : messageFor c.mid p = none := by
            cases hx : messageFor c.mid p with
            | none => rfl
            | some t' =>
              obtain ⟨h4, h5⟩ := (messageFor_iff _ _ _).mp hx
              rw [h1 _ _ _ h4 hl] at h5
              cases h5
          simp only [inbox, hmf]
          rw [h3]
  have h0 := key es ⟨[c], initial⟩ (by simpa using hn) (by simp [lastAdded]) honly
  simp only [App.run, App.step, List.nil_append]
  exact h0

/-! ## An example -/

/-- Counts its messages. -/
def exampleCounter : StatefulCommunity Nat :=
  ⟨0, List.replicate 20 1, fun n _ _ _ => (.ok (), n + 1)⟩

/-- Spoils its state and panics. -/
def examplePanics : StatefulCommunity Nat := ⟨1, List.replicate 20 2, fun _ _ _ _ => (.panic, 99)⟩

/-- Messages to both, in turn, and one of a reserved type. -/
def exampleHistory : List (AppEv Nat) :=
  let msg (m t : UInt8) : AppEv Nat := .forward ⟨[0, 2] ++ List.replicate 20 m ++ [t, 7]⟩ ⟨.v4 1 2 3 4 5⟩
  [.add exampleCounter, .add examplePanics, msg 1 5, msg 2 5, msg 1 255, msg 1 6, msg 2 1]

/-- The hypotheses of `C77` and `C77_fold` hold for it, and both communities are called. -/
example : OneNameEach (addedIn exampleHistory) ∧
    (∀ c', .add c' ∈ exampleHistory.tail → c'.mid ≠ exampleCounter.mid) ∧
    (App.run ⟨[], fun _ => 0⟩ exampleHistory).2.state 0 = 2 ∧
    (App.run ⟨[], fun _ => 0⟩ exampleHistory).2.state 1 = 99 ∧
    (inbox exampleCounter.mid exampleHistory.tail).length = 2 := by
  refine ⟨?_, ?_, by decide +kernel, by decide +kernel, by decide +kernel⟩
  · intro c hc c' hc' h
    simp only [addedIn, exampleHistory, List.mem_cons, List.not_mem_nil, or_false] at hc hc'
    rcases hc with rfl | rfl <;> rcases hc' with rfl | rfl <;> first | rfl | exact absurd h (by decide)
  · intro c' hc'
    simp only [exampleHistory, List.tail_cons, List.mem_cons, List.not_mem_nil, reduceCtorEq, or_false,
      AppEv.add.injEq] at hc'
    subst hc'
    decide

end Ipv8
