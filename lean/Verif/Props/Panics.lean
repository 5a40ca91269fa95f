import Verif.Props.Crypto
/-!
# Property C83: the panics of the reading API
-/

namespace Ipv8
open Spec PacketDeserializer

/-- The unread bytes announce a content that is completely there but too short for an authentication
payload: shorter than the 10 bytes of the key prefix, or with the prefix and without room for two keys. -/
def ShortAuth (unread : Bytes) : Prop :=
  let n := fromBE (unread.take 2)
  2 + n ≤ unread.length ∧ (n < 10 ∨ (((unread.drop 2).take n).take 10 = libNaCLPK ∧ n < 74))

/-- When a call on a deserializer with this packet and this cursor panics. -/
def ReadCall.PanicsOn (bytes : Bytes) (cursor : Nat) : ReadCall → Prop
  | .peekHeader => bytes.length < cursor
  | .popHeader => bytes.length < cursor
  | .skipHeader => bytes.length < cursor
  | .next .auth => bytes.length < cursor ∨ ShortAuth (bytes.drop cursor)
  | .next _ => bytes.length < cursor
  | .verify => bytes.length < cursor ∨ ShortAuth (bytes.drop cursor)
  | .verifyWith _ => bytes.length < 64

/-- The calls that check a signature. -/
def ReadCall.isVerification : ReadCall → Bool
  | .verify => true
  | .verifyWith _ => true
  | _ => false

theorem ReadCall.keep_panic {α : Type} {o : Outcome α} {d : PacketDeserializer} :
    ReadCall.run.keep o d = .panic ↔ o = .panic := by
  cases o <;> simp [ReadCall.run.keep]

theorem nextPayload_outside {α : Type} [Ipv8Payload α] [Serialize α] [Deserialize α]
    {d : PacketDeserializer} (h : d.pntr.bytes.length < d.index) : d.nextPayload α = (.panic, d) := by
  unfold nextPayload sliceFrom
  rw [if_neg (by omega)]

theorem peekHeader_outside {d : PacketDeserializer} (h : d.pntr.bytes.length < d.index) :
    d.peekHeader = .panic := by
  unfold peekHeader sliceFrom
  rw [if_neg (by omega)]
  rfl

theorem skipHeader_panic {d : PacketDeserializer} : d.skipHeader = .panic ↔ d.peekHeader = .panic := by
  rw [← (C27_header d).2.2]
  unfold skipHeader
  rcases d.popHeader with ⟨o, d'⟩
  cases o <;> simp

theorem nextAuth_panic (d : PacketDeserializer) :
    (d.nextPayload BinMemberAuthenticationPayload).1 = .panic ↔
      d.pntr.bytes.length < d.index ∨ ShortAuth (d.pntr.bytes.drop d.index) := by
  by_cases hi : d.index ≤ d.pntr.bytes.length
  · have h := C15_partial d.pntr.bytes d.index hi
    rw [keyPrefix_eq] at h
    simp only at h
    rw [h]
    unfold ShortAuth
    constructor
    · exact Or.inr
    · rintro (h | h)
      · omega
      · exact h
  · rw [nextPayload_outside (by omega)]
    simp; omega

/-- C83. Every call on a deserializer, in every state, with every packet: it panics exactly in the cases
listed in `PanicsOn`. -/
theorem C83 (R : Ring) (d : PacketDeserializer) (hl : d.pntr.bytes.length ≤ usizeMax) (c : ReadCall) :
    c.run R d = .panic ↔ c.PanicsOn d.pntr.bytes d.index := by
  have hplain : c.PlainRead → (c.PanicsOn d.pntr.bytes d.index ↔ d.pntr.bytes.length < d.index) →
      (d.pntr.bytes.length < d.index → c.run R d = .panic) →
      (c.run R d = .panic ↔ c.PanicsOn d.pntr.bytes d.index) := by
    intro hc h1 h2
    rw [h1]
    refine ⟨fun h => ?_, h2⟩
    by_cases hi : d.index ≤ d.pntr.bytes.length
    · obtain ⟨o, ho, _⟩ := plainRead_safe R hc hl hi
      rw [ho] at h; cases h
    · omega
  cases c with
  | peekHeader =>
    exact hplain trivial Iff.rfl (fun h => ReadCall.keep_panic.mpr (peekHeader_outside h))
  | popHeader =>
    refine hplain trivial Iff.rfl (fun h => ReadCall.keep_panic.mpr ?_)
    rw [(C27_header d).2.2]; exact peekHeader_outside h
  | skipHeader =>
    refine hplain trivial Iff.rfl (fun h => ?_)
    have := skipHeader_panic.mpr (peekHeader_outside h)
    simp only [ReadCall.run, this]
  | next k =>
    by_cases hk : k = .auth
    · subst hk
      exact ReadCall.keep_panic.trans (nextAuth_panic d)
    · refine hplain ?_ ?_ (fun h => ReadCall.keep_panic.mpr ?_)
      · cases k <;> first | trivial | exact absurd rfl hk
      · cases k <;> first | exact Iff.rfl | exact absurd rfl hk
      · rw [nextPayload_outside h]
  | verify =>
    refine ReadCall.keep_panic.trans ?_
    rw [show ReadCall.PanicsOn d.pntr.bytes d.index .verify ↔ _ from (nextAuth_panic d).symm]
    by_cases hi : d.index ≤ d.pntr.bytes.length
    · exact (C35_partial R d hi hl).1
    · have h := nextPayload_outside (α := BinMemberAuthenticationPayload) (d := d) (by omega)
      rw [h]
      unfold PacketDeserializer.verify
      rw [h]
      simp
  | verifyWith pk => exact ReadCall.keep_panic.trans (C34 R d pk).1

/-- What one call leaves of the packet, and where the cursor is. -/
theorem call_bounds (R : Ring) {c : ReadCall} {d d' : PacketDeserializer}
    (hl : d.pntr.bytes.length ≤ usizeMax) (h : c.run R d = .ok (some d')) :
    (c.isVerification = false → d'.pntr = d.pntr ∧
      (d.index ≤ d.pntr.bytes.length → d'.index ≤ d'.pntr.bytes.length)) ∧
    (c.isVerification = true → d.pntr.bytes.length ≤ d'.pntr.bytes.length + 64) := by
  have hnp : ¬ c.PanicsOn d.pntr.bytes d.index := by
    rw [← C83 R d hl c, h]; simp
  have hk {α : Type} {o : Outcome α} {x : PacketDeserializer}
      (h : ReadCall.run.keep o x = .ok (some d')) : x = d' := by
    cases o <;> simp [ReadCall.run.keep] at h <;> exact h
  refine ⟨fun hv => ?_, fun hv => ?_⟩
  · by_cases hc : c.PlainRead
    · have hi : d.index ≤ d.pntr.bytes.length := by
        cases c with
        | next k => cases k <;> simp [ReadCall.PanicsOn] at hnp <;> omega
        | verify => simp [ReadCall.isVerification] at hv
        | verifyWith _ => simp [ReadCall.isVerification] at hv
        | _ => simp [ReadCall.PanicsOn] at hnp; omega
      obtain ⟨o, ho, h2⟩ := plainRead_safe R hc hl hi
      rw [h] at ho
      cases ho
      obtain ⟨e1, _, e3⟩ := h2 d' rfl
      exact ⟨e1, fun _ => by rw [e1]; exact e3⟩
    · cases c with
      | next k =>
        cases k with
        | auth =>
          have hx := hk h
          have hp := (C27_next (α := BinMemberAuthenticationPayload) d).2.1
          have hd' : (d.nextPayload BinMemberAuthenticationPayload).2 = d' := hx
          rw [hd'] at hp
          refine ⟨hp, fun hi => ?_⟩
          cases ho : (d.nextPayload BinMemberAuthenticationPayload).1.isOk with
          | false =>
            have := (C27_next (α := BinMemberAuthenticationPayload) d).1 ho
            rw [hd'] at this
            rw [this]; exact hi
          | true =>
            rcases hn : d.nextPayload BinMemberAuthenticationPayload with ⟨o, d1⟩
            rw [hn] at ho hd'
            simp only at hd'
            subst hd'
            cases o with
            | ok v =>
              obtain ⟨n, _, _, _, h4, _⟩ := C17_auth d d1 v hn
              rw [hp]; exact h4
            | err e => cases ho
            | panic => cases ho
        | _ => exact absurd trivial hc
      | verify => simp [ReadCall.isVerification] at hv
      | verifyWith _ => simp [ReadCall.isVerification] at hv
      | _ => exact absurd trivial hc
  · have hvw (x : PacketDeserializer) (pk : Ed25519PublicKey) :
        x.pntr.bytes.length ≤ (x.verifyWith R pk).2.pntr.bytes.length + 64 := by
      by_cases h64 : 64 ≤ x.pntr.bytes.length
      · obtain ⟨b, hb⟩ := (C34 R x pk).2 h64
        rw [hb]; simp only [List.length_take]; omega
      · omega
    cases c with
    | verify =>
      have hd' := hk h
      have hp := (C27_next (α := BinMemberAuthenticationPayload) d).2.1
      rcases hn : d.nextPayload BinMemberAuthenticationPayload with ⟨o, d1⟩
      rw [hn] at hp
      simp only at hp
      unfold PacketDeserializer.verify at hd'
      rw [hn] at hd'
      cases o with
      | ok a =>
        simp only at hd'
        rw [← hd', ← hp]
        exact hvw d1 _
      | err e => simp only at hd'; rw [← hd', hp]; omega
      | panic => simp only at hd'; rw [← hd', hp]; omega
    | verifyWith pk =>
      have hd' := hk h
      rw [← hd']
      exact hvw d pk
    | _ => simp [ReadCall.isVerification] at hv

/-- C83. A history of calls panics exactly when some call in it meets one of the cases of `PanicsOn` in the
state the calls before it left. -/
theorem C83_history (R : Ring) (received : Bytes) (hl : received.length ≤ usizeMax) (cs : List ReadCall) :
    runCalls R cs (Packet.startDeserialize ⟨received⟩) = .panic ↔
      ∃ before c after d, cs = before ++ c :: after ∧
        runCalls R before (Packet.startDeserialize ⟨received⟩) = .ok (some d) ∧
        c.PanicsOn d.pntr.bytes d.index := by
  suffices ∀ (d0 : PacketDeserializer), d0.pntr.bytes.length ≤ usizeMax →
      (runCalls R cs d0 = .panic ↔ ∃ before c after d, cs = before ++ c :: after ∧
        runCalls R before d0 = .ok (some d) ∧ c.PanicsOn d.pntr.bytes d.index) from
    this (Packet.startDeserialize ⟨received⟩) hl
  induction cs with
  | nil => intro d0 _; simp [runCalls]
  | cons c cs ih =>
    intro d0 hl0
    have hc := C83 R d0 hl0 c
    constructor
    · intro h
      simp only [runCalls] at h
      cases hr : c.run R d0 with
      | panic => exact ⟨[], c, cs, d0, rfl, rfl, hc.mp hr⟩
      | err e => rw [hr] at h; cases h
      | ok o =>
        cases o with
        | none => rw [hr] at h; cases h
        | some d1 =>
          rw [hr] at h
          have hm := (call_mono R hr).2.length_le
          obtain ⟨b, c', a, d, h1, h2, h3⟩ := (ih d1 (by omega)).mp h
          refine ⟨c :: b, c', a, d, by rw [h1]; rfl, ?_, h3⟩
          simp only [runCalls, hr]; exact h2
    · rintro ⟨b, c', a, d, h1, h2, h3⟩
      cases b with
      | nil =>
        simp only [List.nil_append, List.cons.injEq] at h1
        obtain ⟨rfl, rfl⟩ := h1
        simp only [runCalls, Outcome.ok.injEq, Option.some.injEq] at h2
        subst h2
        simp only [runCalls, hc.mpr h3]
      | cons c1 b =>
        simp only [List.cons_append, List.cons.injEq] at h1
        obtain ⟨rfl, h1⟩ := h1
        simp only [runCalls] at h2 ⊢
        cases hr : c.run R d0 with
        | panic => rfl
        | err e => rw [hr] at h2; cases h2
        | ok o =>
          cases o with
          | none => rw [hr] at h2; cases h2
          | some d1 =>
            rw [hr] at h2
            have hm := (call_mono R hr).2.length_le
            exact (ih d1 (by omega)).mpr ⟨b, c', a, d, h1, h2, h3⟩

/-- C83. The cursor only gets past the end when signatures are checked: without such calls the packet stays
whole and the cursor inside, whatever was received and whatever is read; and `k` checks remove at most
`64 * k` bytes. -/
theorem C83_cursor (R : Ring) (received : Bytes) (hl : received.length ≤ usizeMax) (cs : List ReadCall)
    (d : PacketDeserializer) (h : runCalls R cs (Packet.startDeserialize ⟨received⟩) = .ok (some d)) :
    ((∀ c ∈ cs, c.isVerification = false) → d.pntr = ⟨received⟩ ∧ d.index ≤ received.length) ∧
    received.length ≤ d.pntr.bytes.length + 64 * cs.countP ReadCall.isVerification := by
  suffices ∀ (d0 : PacketDeserializer), d0.pntr.bytes.length ≤ usizeMax → runCalls R cs d0 = .ok (some d) →
      ((∀ c ∈ cs, c.isVerification = false) → d.pntr = d0.pntr ∧
        (d0.index ≤ d0.pntr.bytes.length → d.index ≤ d0.pntr.bytes.length)) ∧
      d0.pntr.bytes.length ≤ d.pntr.bytes.length + 64 * cs.countP ReadCall.isVerification by
    have := this (Packet.startDeserialize ⟨received⟩) hl h
    exact ⟨fun hc => ⟨(this.1 hc).1, (this.1 hc).2 (Nat.zero_le _)⟩, this.2⟩
  clear h hl
  induction cs with
  | nil =>
    intro d0 _ h
    simp only [runCalls, Outcome.ok.injEq, Option.some.injEq] at h
    subst h
    simp
  | cons c cs ih =>
    intro d0 hl0 h
    simp only [runCalls] at h
    cases hr : c.run R d0 with
    | panic => rw [hr] at h; cases h
    | err e => rw [hr] at h; cases h
    | ok o =>
      cases o with
      | none => rw [hr] at h; cases h
      | some d1 =>
        rw [hr] at h
        have hm := (call_mono R hr).2.length_le
        have hb := call_bounds R hl0 hr
        obtain ⟨i1, i2⟩ := ih d1 (by omega) h
        refine ⟨fun hc => ?_, ?_⟩
        · obtain ⟨e1, e2⟩ := hb.1 (hc c (by simp))
          obtain ⟨f1, f2⟩ := i1 (fun x hx => hc x (by simp [hx]))
          rw [e1] at f1 f2 e2
          exact ⟨f1, fun hi => f2 (e2 hi)⟩
        · cases hv : c.isVerification with
          | true =>
            have := hb.2 hv
            simp only [List.countP_cons, hv, if_true]
            omega
          | false =>
            have e1 := (hb.1 hv).1
            simp only [List.countP_cons, hv]
            rw [← e1]
            simpa using i2

/-- C83. Hence a history without signature checks panics exactly when an authentication payload is read
where the packet has a content that is too short for one. -/
theorem C83_reads (R : Ring) (received : Bytes) (hl : received.length ≤ usizeMax) (cs : List ReadCall)
    (hc : ∀ c ∈ cs, c.isVerification = false) :
    runCalls R cs (Packet.startDeserialize ⟨received⟩) = .panic ↔
      ∃ before after d, cs = before ++ .next .auth :: after ∧
        runCalls R before (Packet.startDeserialize ⟨received⟩) = .ok (some d) ∧
        ShortAuth (received.drop d.index) := by
  rw [C83_history R received hl]
  constructor
  · rintro ⟨b, c, a, d, rfl, h2, h3⟩
    obtain ⟨e1, e2⟩ := (C83_cursor R received hl b d h2).1 (fun x hx => hc x (by simp [hx]))
    rw [e1] at h3
    have hv := hc c (by simp)
    cases c with
    | next k =>
      cases k with
      | auth => exact ⟨b, a, d, rfl, h2, h3.resolve_left (by simp only; omega)⟩
      | _ => simp only [ReadCall.PanicsOn] at h3; omega
    | verify => simp [ReadCall.isVerification] at hv
    | verifyWith _ => simp [ReadCall.isVerification] at hv
    | _ => simp only [ReadCall.PanicsOn] at h3; omega
  · rintro ⟨b, a, d, rfl, h2, h3⟩
    obtain ⟨e1, e2⟩ := (C83_cursor R received hl b d h2).1 (fun x hx => hc x (by simp [hx]))
    exact ⟨b, _, a, d, rfl, h2, by rw [e1]; exact Or.inr h3⟩

-- each case of `PanicsOn` occurs, and so does its opposite
example : ShortAuth [0, 3, 1, 2, 3] ∧ ShortAuth ([0, 10] ++ libNaCLPK) ∧ ¬ ShortAuth [0, 12] ∧
    ¬ ShortAuth ([0, 12] ++ List.replicate 12 1) := by unfold ShortAuth; decide +kernel
example (R : Ring) : runCalls R [.popHeader, .next .auth]
    (Packet.startDeserialize ⟨Spec.header (List.replicate 20 7) 1 ++ [0, 3, 1, 2, 3]⟩) = .panic := by
  rw [C83_reads R _ (by decide) _ (by simp [ReadCall.isVerification])]
  refine ⟨[.popHeader], [], _, rfl, rfl, ?_⟩
  unfold ShortAuth; decide +kernel
example : (ReadCall.verifyWith (FixedBytes.replicate 32 0)).PanicsOn [1, 2, 3] 0 := by
  simp [ReadCall.PanicsOn]

/-! ## Cases for the theorems above -/

/-- `C83_cursor`: a header and a time. -/
example (R : Ring) := C83_cursor R (Spec.header (List.replicate 20 7) 1 ++ [0, 0, 0, 0, 0, 0, 0, 9, 9]) (by decide)
  [.popHeader, .next .time] ⟨⟨Spec.header (List.replicate 20 7) 1 ++ [0, 0, 0, 0, 0, 0, 0, 9, 9]⟩, 31⟩ rfl

/-- `C83` and `C83_history`: an authentication payload that announces three bytes. -/
example : (ReadCall.next .auth).run toyRing ⟨⟨[0, 3, 1, 2, 3]⟩, 0⟩ = .panic ↔ (ReadCall.next .auth).PanicsOn [0, 3, 1, 2, 3] 0 :=
  C83 toyRing ⟨⟨[0, 3, 1, 2, 3]⟩, 0⟩ (by decide) (.next .auth)
example := C83_history toyRing [0, 3, 1, 2, 3] (by decide) [.next .auth]

end Ipv8
