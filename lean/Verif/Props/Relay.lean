import Verif.Props.Packet
/-!
# C56: relaying

What was read from a packet, written again, gives the bytes that were read.
-/

namespace Ipv8
open PacketDeserializer Spec

/-- The kinds whose decoder accepts only what the encoder writes.  Not among them: authentication
payloads (over-long keys are accepted) and the two introduction messages (unknown flag bits are
accepted and dropped). -/
def Kind.Faithful : Kind → Prop
  | .auth => False
  | .introRequest => False
  | .introResponse => False
  | _ => True

theorem Kind.reads_written' : (k : Kind) → k.Faithful → ∀ (r r' : Bytes) (v : k.Ty),
    (Deserialize.de .big : De k.Ty) r = .ok (v, r') →
      ∃ w, Bincode.serialize .big v = .ok w ∧ r = w ++ r'
  | .varlen16, _, r, r', v, h => Kind.reads_written .varlen16 trivial (by simp) r r' v h
  | .varlen32, _, r, r', v, h => Kind.reads_written .varlen32 trivial (by simp) r r' v h
  | .varlen64, _, r, r', v, h => Kind.reads_written .varlen64 trivial (by simp) r r' v h
  | .nested, _, r, r', v, h => Kind.reads_written .nested trivial (by simp) r r' v h
  | .time, _, r, r', v, h => Kind.reads_written .time trivial (by simp) r r' v h
  | .puncture, _, r, r', v, h => Kind.reads_written .puncture trivial (by simp) r r' v h
  | .punctureRequest, _, r, r', v, h =>
    Kind.reads_written .punctureRequest trivial (by simp) r r' v h
  | .derived s, _, r, r', v, h => by
    obtain ⟨ts, h1, h2⟩ := Sch.de_exact .big s r r' _ (Derived.de_eq_ok.mp h)
    exact ⟨_, Bincode.serialize_of_ser .big (α := Derived s) h1, h2⟩

/-- C56. Adding a payload that was read to any packet appends exactly the bytes it was read from: those
between the cursor before and the cursor after. -/
theorem C56 (k : Kind) (hk : k.Faithful) (d d' : PacketDeserializer) (v : k.Ty)
    (hl : d.pntr.bytes.length ≤ usizeMax) (h : d.nextPayload k.Ty = (.ok v, d')) :
    Writes v ((d.pntr.bytes.drop d.index).take (d'.index - d.index)) := by
  have hna : k ≠ .auth := by rintro rfl; exact hk
  obtain ⟨h1, h2, h3, h4⟩ := nextPayload_sizeExact (k.sizeExact hna) hl h
  obtain ⟨w, hw, hr⟩ := k.reads_written' hk _ _ _ h4
  have hlen := congrArg List.length hr
  simp only [List.length_drop, List.length_append] at hlen
  have : (d.pntr.bytes.drop d.index).take (d'.index - d.index) = w := by
    rw [hr, List.take_left']
    omega
  rw [this]
  exact writes_of_serialize hw

/-- C56. A relay that pops the header, reads any faithful payloads, and builds a new packet from what it
read reproduces the packet it received, up to the position it read to. -/
theorem C56_packet (received : Bytes) (hl : received.length ≤ usizeMax) (hd : Header)
    (d d' : PacketDeserializer) (ks : List Kind) (vs : List AnyPayload)
    (hk : ∀ k ∈ ks, k.Faithful)
    (hpop : (Packet.startDeserialize ⟨received⟩).popHeader = (.ok hd, d))
    (hread : readAll d ks = .ok (vs, d')) :
    ∃ p, Packet.new hd = .ok p ∧ addAll p vs = .ok ⟨received.take d'.index⟩ := by
  have key : ∀ (ks : List Kind) (d d' : PacketDeserializer) (vs : List AnyPayload),
      (∀ k ∈ ks, k.Faithful) → d.pntr = ⟨received⟩ → d.index ≤ received.length →
      readAll d ks = .ok (vs, d') →
      addAll ⟨received.take d.index⟩ vs = .ok ⟨received.take d'.index⟩ := by
    intro ks
    induction ks with
    | nil =>
      intro d d' vs _ _ _ h
      simp only [readAll, Outcome.ok.injEq, Prod.mk.injEq] at h
      obtain ⟨rfl, rfl⟩ := h
      rfl
    | cons k ks ih =>
      intro d d' vs hk hp hi h
      simp only [readAll] at h
      cases hn : d.nextPayload k.Ty with
      | mk o m =>
        cases o with
        | err e => simp [hn] at h
        | panic => simp [hn] at h
        | ok v =>
          simp only [hn] at h
          cases hr : readAll m ks with
          | err e => simp [hr] at h
          | panic => simp [hr] at h
          | ok x =>
            obtain ⟨ws, m'⟩ := x
            simp only [hr, Outcome.ok.injEq, Prod.mk.injEq] at h
            obtain ⟨rfl, rfl⟩ := h
            have hkf := hk k (by simp)
            have hna : k ≠ .auth := by rintro rfl; exact hkf
            have hl' : d.pntr.bytes.length ≤ usizeMax := by rw [hp]; exact hl
            obtain ⟨h1, h2, h3, _⟩ := nextPayload_sizeExact (k.sizeExact hna) hl' hn
            have hw := C56 k hkf d m v hl' hn ⟨received.take d.index⟩
            have hpb : d.pntr.bytes = received := by rw [hp]
            have hcat : received.take d.index ++ (d.pntr.bytes.drop d.index).take (m.index - d.index) =
                received.take m.index := by
              rw [hpb]
              have e : m.index = d.index + (m.index - d.index) := by omega
              exact (List.take_add.symm.trans (by rw [← e]))
            simp only at hw
            rw [hcat] at hw
            simp only [addAll, hw]
            rw [hpb] at h2
            exact ih m m' ws (fun k hk' => hk k (by simp [hk'])) (h3.trans hp) h2 hr
  have hi : (Packet.startDeserialize ⟨received⟩).index ≤
      (Packet.startDeserialize ⟨received⟩).pntr.bytes.length := Nat.zero_le _
  have hsafe := (peekHeader_safe hi).2
  unfold popHeader at hpop
  cases hpk : (Packet.startDeserialize ⟨received⟩).peekHeader with
  | err e => simp [hpk] at hpop
  | panic => simp [hpk] at hpop
  | ok h' =>
    simp only [hpk, Prod.mk.injEq, Outcome.ok.injEq] at hpop
    obtain ⟨rfl, rfl⟩ := hpop
    have hle := hsafe h' hpk
    rw [peekHeader_of_de hi] at hpk
    cases hde : (Deserialize.de .big : De Header)
        ((Packet.startDeserialize ⟨received⟩).pntr.bytes.drop
          (Packet.startDeserialize ⟨received⟩).index) with
    | err e => simp [hde] at hpk
    | panic => simp [hde] at hpk
    | ok x =>
      obtain ⟨h'', r'⟩ := x
      simp only [hde, Outcome.ok.injEq] at hpk
      subst hpk
      obtain ⟨mid, t, hmid, rfl, hr⟩ := Header.de_eq_ok.mp hde
      have hrec : received = 0 :: 2 :: (mid ++ t :: r') := hr
      have hsz : (Header.ofMid mid t).size = 23 := rfl
      refine ⟨⟨received.take 23⟩, ?_, ?_⟩
      · have : Packet.new (Header.pyIpv8Header ⟨mid, hmid⟩ t) = _ := C10_wire ⟨mid, hmid⟩ t
        have e : Header.pyIpv8Header ⟨mid, hmid⟩ t = Header.ofMid mid t := rfl
        rw [e] at this
        rw [this, hrec]
        congr 2
        have : (0 :: 2 :: (mid ++ t :: r')) = header mid t ++ r' := by simp [header]
        rw [this, List.take_left']
        simp [header, hmid]
      · have := key ks _ d' vs hk rfl (by simpa [Packet.startDeserialize] using hle) hread
        simpa [Packet.startDeserialize, hsz] using this

/-- Not faithful, in the worst way: an authentication payload with an over-long key is accepted, and
relaying it changes the bytes. -/
theorem C56_auth_not_faithful :
    ∃ (s : Bytes) (v : BinMemberAuthenticationPayload) (d' : PacketDeserializer),
      nextPayload BinMemberAuthenticationPayload ⟨⟨s⟩, 0⟩ = (.ok v, d') ∧
      ∀ n, ¬ Writes v (s.take n) := by
  refine ⟨longAuth, ⟨FixedBytes.replicate 32 7, FixedBytes.replicate 32 7⟩, ⟨⟨longAuth⟩, 76⟩,
    by decide +kernel, ?_⟩
  intro n hw
  have h1 := serialize_of_writes hw
  have h2 := serialize_of_writes (C14_wire ⟨FixedBytes.replicate 32 7, FixedBytes.replicate 32 7⟩)
  rw [h1] at h2
  simp only [Outcome.ok.injEq] at h2
  have h3 := congrArg (fun l : Bytes => l[1]?) h2
  have h4 := congrArg List.length h2
  rw [C14_length] at h4
  have h5 : 76 ≤ n := by
    have : (longAuth.take n).length ≤ n := by simp; omega
    omega
  simp only [List.getElem?_take, show 1 < n by omega, if_true] at h3
  revert h3
  decide +kernel

/-- The hypotheses of `C56_packet` are met by a received packet with two payloads and a trailing byte. -/
example : ∃ d d' vs,
    (Packet.startDeserialize ⟨header (List.replicate 20 7) 1 ++
      [0, 2, 5, 6, 0, 0, 0, 0, 0, 0, 0, 9, 99]⟩).popHeader =
      (.ok (Header.ofMid (List.replicate 20 7) 1), d) ∧
    readAll d [.varlen16, .time] = .ok (vs, d') ∧ d'.index = 35 :=
  ⟨_, _, _, rfl, rfl, rfl⟩

/-! ## Cases for the theorems above -/

/-- `C56`: a string that is read in the middle of a packet. -/
example := C56 .varlen16 trivial ⟨⟨[9, 0, 2, 5, 6, 7]⟩, 1⟩ ⟨⟨[9, 0, 2, 5, 6, 7]⟩, 5⟩ (VarLen16.mk [5, 6]) (by decide) rfl

end Ipv8
