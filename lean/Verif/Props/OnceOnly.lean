import Verif.Props.OneForm
import Verif.Props.LiveSigned
import Verif.Props.Panics
/-!
# C116: acting on every signed message once

What the crate offers suffices for it: a community that remembers the bytes it has verified.
-/

namespace Ipv8
open PacketDeserializer Spec

/-! ## The community -/

/-- An `on_receive` written with the reader of the crate, for messages signed by `pk` and payload types agreed for each
header.  It reads only what cannot make the reader panic, keeps to messages of `pk` that verify and can be read, and
leaves out those whose bytes without the signature it remembers (`seen`).  Its answer: the message it acts on now, if any,
and what it remembers from now on. -/
def actOnce (R : Ring) (pk : Ed25519PublicKey) (types : Bytes → UInt8 → List Kind) (seen : List Bytes)
    (deserializer : PacketDeserializer) : Outcome (Option Message × List Bytes) :=
  if deserializer.len < 163 then .ok (none, seen)
  else match deserializer.popHeader with
  | (.ok ⟨_, _, some mid, some type⟩, d) =>
    match toFixed 20 mid, (d.nextPayload VarLen16).1 with
    | some mid, .ok contents =>
      if contents.data.length < 74 then .ok (none, seen)
      else match (d.nextPayload BinMemberAuthenticationPayload).1 with
      | .ok a =>
        if a.publicKeyBin ≠ pk then .ok (none, seen)
        else match d.verify R with
        | (.ok true, d') =>
          match readAll d' (types mid.1 type.toUInt8) with
          | .ok (payloads, _) =>
            if d'.pntr.bytes ∈ seen then .ok (none, seen)
            else .ok (some ⟨mid, type.toUInt8, a.encryptionKeyBin, payloads⟩, d'.pntr.bytes :: seen)
          | .err _ => .ok (none, seen)
          | .panic => .panic
        | (.panic, _) => .panic
        | _ => .ok (none, seen)
      | .err _ => .ok (none, seen)
      | .panic => .panic
    | _, .panic => .panic
    | _, _ => .ok (none, seen)
  | (.panic, _) => .panic
  | _ => .ok (none, seen)

/-- The messages it has acted on, in order, and what it remembers, after it was called with these packets. -/
def actedOn (R : Ring) (pk : Ed25519PublicKey) (types : Bytes → UInt8 → List Kind) (packets : List Packet) :
    List Message × List Bytes :=
  packets.foldl (fun s p =>
    match actOnce R pk types s.2 p.startDeserialize with
    | .ok (some m, seen) => (s.1 ++ [m], seen)
    | .ok (none, seen) => (s.1, seen)
    | _ => s) ([], [])

/-- The packets that the community object `id` has been called with, in order. -/
def packetsFor (id : Nat) (calls : List Call) : List Packet :=
  (calls.filter (fun call => call.community == id)).map (fun call => call.deserializer.pntr)

/-! ## Proofs -/

/-- Reading a length-prefixed string of at least 74 bytes here: then reading an authentication payload does not panic. -/
theorem auth_guarded {d : PacketDeserializer} {c : VarLen16} (hi : d.index ≤ d.pntr.bytes.length)
    (h : (d.nextPayload VarLen16).1 = .ok c) (hc : 74 ≤ c.data.length) :
    (d.nextPayload BinMemberAuthenticationPayload).1 ≠ .panic := by
  rw [Ne, nextAuth_panic]
  rintro (hp | hp)
  · omega
  · obtain ⟨h1, h2⟩ := hp
    have h6 := (C06_varlen16 d.pntr.bytes d.index hi).2 h1
    have : d.nextPayload VarLen16 = (.ok c, (d.nextPayload VarLen16).2) := by rw [← h]
    rw [show (⟨⟨d.pntr.bytes⟩, d.index⟩ : PacketDeserializer) = d from rfl, this] at h6
    simp only [Prod.mk.injEq, Outcome.ok.injEq] at h6
    have hlen := congrArg (fun v : VarLen16 => v.data.length) h6.1
    simp only [List.length_take, List.length_drop] at hlen
    omega

theorem body_shape {m : Message} {pk : Ed25519PublicKey} {b : Bytes} (h : m.Body pk b) :
    ∃ w, b = Spec.header m.mid.1 m.type ++ authentication ⟨pk, m.encryptionKey⟩ ++ w := by
  obtain ⟨p, hp, hq⟩ := h
  rw [C10_wire] at hp
  cases hp
  obtain ⟨q, hq1, hq2⟩ := addAll_append (vs := [⟨.auth, BinMemberAuthenticationPayload.mk pk m.encryptionKey⟩]).mp hq
  have h2 : Packet.add (α := Kind.Ty .auth) ⟨Spec.header m.mid.1 m.type⟩ (BinMemberAuthenticationPayload.mk pk m.encryptionKey) =
    (.ok (), ⟨Spec.header m.mid.1 m.type ++ authentication ⟨pk, m.encryptionKey⟩⟩) := C14_wire _ _
  simp only [addAll, h2, Outcome.ok.injEq] at hq1
  subst hq1
  exact addAll_prefix hq2

/-- An accepted packet passes all checks. -/
theorem actOnce_accepted (R : Ring) (pk : Ed25519PublicKey) (types : Bytes → UInt8 → List Kind)
    (Signed : Message → Prop) (hconf : ∀ m, Signed m → m.Conforms types)
    (packet : Packet) (hl : packet.bytes.length ≤ usizeMax) (hunf : NotForged R pk Signed packet.bytes)
    (m : Message) (hty : m.payloads.map (·.1) = types m.mid.1 m.type) (h : AcceptedAs R pk packet m) (seen : List Bytes) :
    Signed m ∧ ∃ b, m.Body pk b ∧ b.length ≤ usizeMax ∧
      actOnce R pk types seen packet.startDeserialize =
        if b ∈ seen then .ok (none, seen) else .ok (some m, b :: seen) := by
  obtain ⟨hS, b, sig, hb, hsig, hbody⟩ := accepted_body R pk types Signed hconf packet hl hunf m hty h
  have hpk : packet = ⟨b ++ sig⟩ := by cases packet; simp_all
  subst hpk
  have hlb : b.length ≤ usizeMax := by simp at hl; omega
  refine ⟨hS, b, hbody, hlb, ?_⟩
  obtain ⟨d, d', d'', e, hpop, hauth, hver, hread⟩ := h
  obtain ⟨w, hw⟩ := body_shape hbody
  have hal := C14_length ⟨pk, m.encryptionKey⟩
  have hhl := C10_length m.mid m.type
  have hblen : b.length = 99 + w.length := by
    rw [hw, List.length_append, List.length_append, hhl, hal]
  have hlen : ¬ (b ++ sig).length < 163 := by rw [List.length_append, hblen, hsig]; omega
  have hv : R.verify pk.1 b sig = true := by
    have h1 : (d.verify R).1 = .ok true := by rw [hver]
    obtain ⟨a', d3, g1, b', sig', g2, g3, g4⟩ := (C33_verify R d).mp h1
    rw [hauth] at g1
    simp only [Prod.mk.injEq, Outcome.ok.injEq] at g1
    rw [← g1.1] at g4
    have hsame : d.pntr = ⟨b ++ sig⟩ := by
      have := (C27_header (Packet.mk (b ++ sig)).startDeserialize).2.1
      rw [hpop] at this
      exact this
    rw [hsame] at g2
    simp only at g2
    obtain ⟨e1, e2⟩ := List.append_inj' g2 (by rw [hsig, g3])
    rw [e1, e2]
    exact g4
  obtain ⟨s1, s2, s3, s4⟩ := signed_reads R pk m (hconf m hS).2 b hbody sig hsig hv hl
  have hpop' : popHeader ⟨⟨b ++ sig⟩, 0⟩ = (.ok (Header.pyIpv8Header m.mid m.type), d) := hpop
  rw [s1] at hpop'
  simp only [Prod.mk.injEq, true_and] at hpop'
  have hvl : (nextPayload VarLen16 ⟨⟨b ++ sig⟩, 23⟩).1 =
      .ok ⟨keyPrefix ++ m.encryptionKey.1 ++ pk.1⟩ := by
    have hs : b ++ sig = Spec.header m.mid.1 m.type ++
        ([0, 74] ++ (keyPrefix ++ m.encryptionKey.1 ++ pk.1) ++ (w ++ sig)) := by
      rw [hw]; simp [authentication]
    have hkl : (keyPrefix ++ m.encryptionKey.1 ++ pk.1).length = 74 := by
      have : keyPrefix.length = 10 := by decide +kernel
      rw [List.length_append, List.length_append, this, m.encryptionKey.2, pk.2]
    have hdrop : (b ++ sig).drop 23 = [0, 74] ++ ((keyPrefix ++ m.encryptionKey.1 ++ pk.1) ++ (w ++ sig)) := by
      rw [hs, List.drop_left' hhl, List.append_assoc]
    have h6 := (C06_varlen16 (b ++ sig) 23 (by omega)).2
    rw [hdrop] at h6
    have hn : fromBE (([0, 74] ++ ((keyPrefix ++ m.encryptionKey.1 ++ pk.1) ++ (w ++ sig))).take 2) = 74 := by
      rw [List.take_left' (l₁ := ([0, 74] : Bytes)) (by rfl)]; decide
    rw [hn] at h6
    rw [h6 (by rw [List.length_append, List.length_append, hkl]; simp; omega),
      List.drop_left' (l₁ := ([0, 74] : Bytes)) (by rfl), List.take_left' hkl]
  have hkl : (keyPrefix ++ m.encryptionKey.1 ++ pk.1).length = 74 := by
    have : keyPrefix.length = 10 := by decide +kernel
    rw [List.length_append, List.length_append, this, m.encryptionKey.2, pk.2]
  have hfix : toFixed 20 m.mid.1 = some m.mid := by
    unfold toFixed
    rw [dif_pos m.mid.2]
  have htt : m.type.toUInt64.toUInt8 = m.type := by simp
  have hread' : readAll ⟨⟨b⟩, 99⟩ (types m.mid.1 m.type) = .ok (m.payloads, ⟨⟨b⟩, b.length⟩) := by rw [← hty]; exact s4
  unfold actOnce
  rw [if_neg (show ¬ (Packet.mk (b ++ sig)).startDeserialize.len < 163 from hlen)]
  simp only [Packet.startDeserialize, s1, Header.pyIpv8Header, Header.ofMid, hfix, hvl, hkl, Nat.lt_irrefl, if_false,
    s2, ne_eq, not_true_eq_false, s3, htt, hread']

/-- What passes all checks is an accepted packet; nothing panics. -/
theorem actOnce_cases (R : Ring) (pk : Ed25519PublicKey) (types : Bytes → UInt8 → List Kind)
    (Signed : Message → Prop) (hconf : ∀ m, Signed m → m.Conforms types)
    (packet : Packet) (hl : packet.bytes.length ≤ usizeMax) (hunf : NotForged R pk Signed packet.bytes)
    (seen : List Bytes) :
    actOnce R pk types seen packet.startDeserialize = .ok (none, seen) ∨
      ∃ m, m.payloads.map (·.1) = types m.mid.1 m.type ∧ AcceptedAs R pk packet m := by
  unfold actOnce
  split
  · exact .inl rfl
  rename_i hlen
  have h163 : 163 ≤ packet.bytes.length := by
    simp only [PacketDeserializer.len, Packet.len, Packet.startDeserialize] at hlen
    omega
  rcases hpop : packet.startDeserialize.popHeader with ⟨o, d⟩
  cases o with
  | err e => exact .inl rfl
  | panic =>
    exfalso
    have := (ReadCall.keep_panic (d := d)).mpr (show packet.startDeserialize.popHeader.1 = .panic by rw [hpop])
    have h83 := (C83 R packet.startDeserialize hl .popHeader).mp
      (show ReadCall.run.keep _ _ = _ from ReadCall.keep_panic.mpr (by rw [hpop]))
    simp [ReadCall.PanicsOn, Packet.startDeserialize] at h83
  | ok header =>
    have hpk := (C27_header packet.startDeserialize).2.2
    rw [hpop] at hpk
    obtain ⟨hsz, ⟨mid, hm, hml⟩, t, ht, htl⟩ := C11_shape _ header hpk.symm
    obtain ⟨size, version, midHash, messageType⟩ := header
    simp only at hsz hm ht
    subst hm ht hsz
    have hfix : toFixed 20 mid = some ⟨mid, hml⟩ := by
      unfold toFixed
      rw [dif_pos hml]
    have htt : t.toUInt8.toUInt64 = t := by
      apply UInt64.toNat_inj.mp
      simp
      omega
    have hd : d = ⟨packet, 23⟩ := by
      have := (C11_pop packet.startDeserialize).2.1 _ hpk.symm
      rw [hpop] at this
      simpa [Packet.startDeserialize] using this
    subst hd
    simp only [hfix]
    cases hvl : (nextPayload VarLen16 ⟨packet, 23⟩).1 with
    | err e => exact .inl rfl
    | panic =>
      exfalso
      have h83 := (C83 R ⟨packet, 23⟩ hl (.next .varlen16)).mp
        (show ReadCall.run.keep _ _ = _ from ReadCall.keep_panic.mpr hvl)
      simp only [ReadCall.PanicsOn] at h83
      omega
    | ok contents =>
      simp only
      split
      · exact .inl rfl
      rename_i hc
      have hnp := auth_guarded (d := ⟨packet, 23⟩) (by simp only; omega) hvl (by omega)
      rcases ha : nextPayload BinMemberAuthenticationPayload ⟨packet, 23⟩ with ⟨o, d2⟩
      rw [ha] at hnp
      cases o with
      | err e => exact .inl rfl
      | panic => exact absurd rfl hnp
      | ok a =>
        simp only
        split
        · exact .inl rfl
        rename_i hkey
        have hkey' : a.publicKeyBin = pk := Classical.not_not.mp hkey
        obtain ⟨b, d', hv, -⟩ := (C35_partial R ⟨packet, 23⟩ (by simp only; omega) hl).2.2 (by rw [ha]; rfl)
        rw [hv]
        cases b with
        | false => exact .inl rfl
        | true =>
          simp only
          -- a verified packet is of a signed message, which can be read
          have hv1 : (PacketDeserializer.verify R ⟨packet, 23⟩).1 = .ok true := by rw [hv]
          obtain ⟨a', d3, g1, b, sig, g2, g3, g4⟩ := (C33_verify R _).mp hv1
          rw [ha] at g1
          simp only [Prod.mk.injEq, Outcome.ok.injEq] at g1
          rw [← g1.1, hkey'] at g4
          obtain ⟨m, hm, hbody⟩ := hunf b sig g2 g3 g4
          have hpk' : packet = ⟨b ++ sig⟩ := by cases packet; simp_all
          obtain ⟨s1, s2, s3, s4⟩ := signed_reads R pk m (hconf m hm).2 b hbody sig g3 g4 (by rw [hpk'] at hl; exact hl)
          rw [← hpk'] at s1 s2 s3
          refine .inr ⟨m, (hconf m hm).1, ?_⟩
          exact ⟨_, _, _, _, s1, s2, s3, s4⟩

/-- **C116, no panic.**  Called with any packet that is not a forgery, the community does not panic. -/
theorem C116_safe (R : Ring) (pk : Ed25519PublicKey) (types : Bytes → UInt8 → List Kind)
    (Signed : Message → Prop) (hconf : ∀ m, Signed m → m.Conforms types)
    (packet : Packet) (hl : packet.bytes.length ≤ usizeMax) (hunf : NotForged R pk Signed packet.bytes)
    (seen : List Bytes) : actOnce R pk types seen packet.startDeserialize ≠ .panic := by
  rcases actOnce_cases R pk types Signed hconf packet hl hunf seen with h | ⟨m, hty, hm⟩
  · rw [h]; simp
  · obtain ⟨-, b, -, -, h⟩ := actOnce_accepted R pk types Signed hconf packet hl hunf m hty hm seen
    rw [h]
    split <;> simp

theorem body_unique {m : Message} {pk : Ed25519PublicKey} {b b' : Bytes} (h : m.Body pk b) (h' : m.Body pk b') : b = b' := by
  obtain ⟨p, hp, hq⟩ := h
  obtain ⟨p', hp', hq'⟩ := h'
  rw [hp] at hp'
  cases hp'
  rw [hq] at hq'
  simpa using hq'

theorem readAll_plain (R : Ring) (ks : List Kind) (hk : ∀ k ∈ ks, k ≠ .auth) (d : PacketDeserializer)
    (hl : d.pntr.bytes.length ≤ usizeMax) (hi : d.index ≤ d.pntr.bytes.length) : readAll d ks ≠ .panic := by
  induction ks generalizing d with
  | nil => simp [readAll]
  | cons k ks ih =>
    have hplain : (ReadCall.next k).PlainRead := by
      have := hk k (by simp)
      cases k <;> simp_all [ReadCall.PlainRead]
    obtain ⟨o, h1, h2⟩ := runCalls_safe R [.next k] (by simpa using hplain) d hl hi
    rcases hn : d.nextPayload k.Ty with ⟨r, d'⟩
    simp only [readAll, hn]
    cases r with
    | err e => simp
    | panic =>
      simp [runCalls, ReadCall.run, ReadCall.run.keep, hn] at h1
    | ok v =>
      have e1 : some d' = o := by
        simpa [runCalls, ReadCall.run, ReadCall.run.keep, hn] using h1
      obtain ⟨g1, -, g3⟩ := h2 d' e1.symm
      have := ih (fun k hk' => hk k (by simp [hk'])) d' (by rw [g1]; exact hl) (by rw [g1]; exact g3)
      simp only
      cases hr : readAll d' ks with
      | ok x => simp
      | err e => simp
      | panic => exact absurd hr this

/-- **C116, no panic on anything.**  If no authentication payload is among the agreed types, the community does not panic
on any packet at all, forgeries included. -/
theorem C116_any (R : Ring) (pk : Ed25519PublicKey) (types : Bytes → UInt8 → List Kind)
    (hty : ∀ mid t, ∀ k ∈ types mid t, k ≠ .auth)
    (packet : Packet) (hl : packet.bytes.length ≤ usizeMax) (seen : List Bytes) :
    actOnce R pk types seen packet.startDeserialize ≠ .panic := by
  unfold actOnce
  split
  · simp
  rename_i hlen
  have h163 : 163 ≤ packet.bytes.length := by
    simp only [PacketDeserializer.len, Packet.len, Packet.startDeserialize] at hlen
    omega
  rcases hpop : packet.startDeserialize.popHeader with ⟨o, d⟩
  cases o with
  | err e => simp
  | panic =>
    exfalso
    have h83 := (C83 R packet.startDeserialize hl .popHeader).mp
      (show ReadCall.run.keep _ _ = _ from ReadCall.keep_panic.mpr (by rw [hpop]))
    simp [ReadCall.PanicsOn, Packet.startDeserialize] at h83
  | ok header =>
    have hpk := (C27_header packet.startDeserialize).2.2
    rw [hpop] at hpk
    obtain ⟨hsz, ⟨mid, hm, hml⟩, t, ht, htl⟩ := C11_shape _ header hpk.symm
    obtain ⟨size, version, midHash, messageType⟩ := header
    simp only at hsz hm ht
    subst hm ht hsz
    have hfix : toFixed 20 mid = some ⟨mid, hml⟩ := by
      unfold toFixed
      rw [dif_pos hml]
    have hd : d = ⟨packet, 23⟩ := by
      have := (C11_pop packet.startDeserialize).2.1 _ hpk.symm
      rw [hpop] at this
      simpa [Packet.startDeserialize] using this
    subst hd
    simp only [hfix]
    cases hvl : (nextPayload VarLen16 ⟨packet, 23⟩).1 with
    | err e => simp
    | panic =>
      exfalso
      have h83 := (C83 R ⟨packet, 23⟩ hl (.next .varlen16)).mp
        (show ReadCall.run.keep _ _ = _ from ReadCall.keep_panic.mpr hvl)
      simp only [ReadCall.PanicsOn] at h83
      omega
    | ok contents =>
      simp only
      split
      · simp
      rename_i hc
      have hnp := auth_guarded (d := ⟨packet, 23⟩) (by simp only; omega) hvl (by omega)
      rcases ha : nextPayload BinMemberAuthenticationPayload ⟨packet, 23⟩ with ⟨o, d2⟩
      rw [ha] at hnp
      cases o with
      | err e => simp
      | panic => exact absurd rfl hnp
      | ok a =>
        simp only
        split
        · simp
        obtain ⟨b, d', hv, hidx, hlen', -⟩ :=
          (C35_partial R ⟨packet, 23⟩ (by simp only; omega) hl).2.2 (by rw [ha]; rfl)
        rw [hv]
        cases b with
        | false => simp
        | true =>
          simp only at hidx hlen' ⊢
          have hnp := readAll_plain R (types mid t.toUInt8) (hty mid t.toUInt8) d' (by omega) (by omega)
          cases hr : readAll d' (types mid t.toUInt8) with
          | err e => simp
          | panic => exact absurd hr hnp
          | ok x =>
            simp only
            split <;> simp

/-- **C116.**  The community has been called with any packets, none of them a forgery: then it has acted on no message
twice, and on exactly those messages that one of the packets can be accepted as; all of them were signed by
the key holder. -/
theorem C116 (R : Ring) (pk : Ed25519PublicKey) (types : Bytes → UInt8 → List Kind)
    (Signed : Message → Prop) (hconf : ∀ m, Signed m → m.Conforms types)
    (packets : List Packet) (hl : ∀ p ∈ packets, p.bytes.length ≤ usizeMax)
    (hunf : ∀ p ∈ packets, NotForged R pk Signed p.bytes) :
    (actedOn R pk types packets).1.Nodup ∧ (∀ m ∈ (actedOn R pk types packets).1, Signed m) ∧
    ∀ m, m ∈ (actedOn R pk types packets).1 ↔
      m.payloads.map (·.1) = types m.mid.1 m.type ∧ ∃ p ∈ packets, AcceptedAs R pk p m := by
  -- invariant: what is remembered are the bytes of the messages acted on
  have key : ∀ (packets done : List Packet) (s : List Message × List Bytes),
      (∀ p ∈ packets, p.bytes.length ≤ usizeMax) → (∀ p ∈ packets, NotForged R pk Signed p.bytes) →
      s.1.Nodup → (∀ m ∈ s.1, Signed m) →
      (∀ m, m ∈ s.1 ↔ m.payloads.map (·.1) = types m.mid.1 m.type ∧ ∃ p ∈ done, AcceptedAs R pk p m) →
      (∀ m ∈ s.1, ∃ b ∈ s.2, m.Body pk b) → (∀ b ∈ s.2, b.length ≤ usizeMax ∧ ∃ m ∈ s.1, m.Body pk b) →
      let r := packets.foldl (fun s p =>
        match actOnce R pk types s.2 p.startDeserialize with
        | .ok (some m, seen) => (s.1 ++ [m], seen)
        | .ok (none, seen) => (s.1, seen)
        | _ => s) s
      r.1.Nodup ∧ (∀ m ∈ r.1, Signed m) ∧
        ∀ m, m ∈ r.1 ↔ m.payloads.map (·.1) = types m.mid.1 m.type ∧ ∃ p ∈ done ++ packets, AcceptedAs R pk p m := by
    intro packets
    induction packets with
    | nil => intro done s _ _ h1 h2 h3 _ _; exact ⟨h1, h2, by simpa using h3⟩
    | cons p ps ih =>
      intro done s hl hu h1 h2 h3 h4 h5
      have hlp := hl p (by simp)
      have hup := hu p (by simp)
      have hacc := fun m hty hm => actOnce_accepted R pk types Signed hconf p hlp hup m hty hm s.2
      have hcases := actOnce_cases R pk types Signed hconf p hlp hup s.2
      have app : done ++ p :: ps = (done ++ [p]) ++ ps := by simp
      rw [List.foldl_cons, app]
      -- two messages of one packet are the same
      have same : ∀ m m', m.payloads.map (·.1) = types m.mid.1 m.type → AcceptedAs R pk p m →
          m'.payloads.map (·.1) = types m'.mid.1 m'.type → AcceptedAs R pk p m' → m = m' := by
        intro m m' hty hm hty' hm'
        obtain ⟨hS, b, sig, e1, e2, hb⟩ := accepted_body R pk types Signed hconf p hlp hup m hty hm
        obtain ⟨hS', b', sig', e1', e2', hb'⟩ := accepted_body R pk types Signed hconf p hlp hup m' hty' hm'
        rw [e1] at e1'
        obtain ⟨e3, -⟩ := List.append_inj' e1' (by rw [e2, e2'])
        subst e3
        refine (C114_signed types m m' pk pk (hconf m hS) (hconf m' hS') b ?_ hb hb').2
        have : p.bytes.length = b.length + sig.length := by rw [e1, List.length_append]
        omega
      by_cases hex : ∃ m, m.payloads.map (·.1) = types m.mid.1 m.type ∧ AcceptedAs R pk p m
      · obtain ⟨m, hty, hm⟩ := hex
        obtain ⟨hS, b, hb, hbl, he⟩ := hacc m hty hm
        rw [he]
        by_cases hin : b ∈ s.2
        · -- had before
          simp only [if_pos hin]
          have hmem : m ∈ s.1 := by
            obtain ⟨hbl', m', hm', hb'⟩ := h5 b hin
            have := (C114_signed types m m' pk pk (hconf m hS) (hconf m' (h2 m' hm')) b hbl' hb hb').2
            rw [this]
            exact hm'
          refine ih (done ++ [p]) s (fun q hq => hl q (by simp [hq])) (fun q hq => hu q (by simp [hq])) h1 h2 ?_ h4 h5
          intro m'
          rw [h3]
          constructor
          · rintro ⟨g1, q, g2, g3⟩
            exact ⟨g1, q, by simp [g2], g3⟩
          · rintro ⟨g1, q, g2, g3⟩
            rcases List.mem_append.mp g2 with g2 | g2
            · exact ⟨g1, q, g2, g3⟩
            · rw [List.mem_singleton] at g2
              subst g2
              rw [same m' m g1 g3 hty hm]
              exact (h3 m).mp hmem
        · -- new
          simp only [if_neg hin]
          have hnot : m ∉ s.1 := by
            intro hmem
            obtain ⟨b', hb', hbb⟩ := h4 m hmem
            rw [body_unique hbb hb] at hb'
            exact hin hb'
          refine ih (done ++ [p]) (s.1 ++ [m], b :: s.2) (fun q hq => hl q (by simp [hq]))
            (fun q hq => hu q (by simp [hq])) ?_ ?_ ?_ ?_ ?_
          · simp only
            rw [List.nodup_append]
            refine ⟨h1, by simp, ?_⟩
            intro x hx y hy
            rw [List.mem_singleton] at hy
            subst hy
            rintro rfl
            exact hnot hx
          · intro x hx
            rcases List.mem_append.mp hx with hx | hx
            · exact h2 x hx
            · rw [List.mem_singleton] at hx
              rw [hx]
              exact hS
          · intro m'
            simp only [List.mem_append, List.mem_singleton, h3]
            constructor
            · rintro (⟨g1, q, g2, g3⟩ | rfl)
              · exact ⟨g1, q, .inl g2, g3⟩
              · exact ⟨hty, p, .inr rfl, hm⟩
            · rintro ⟨g1, q, g2 | rfl, g3⟩
              · exact .inl ⟨g1, q, g2, g3⟩
              · exact .inr (same m' m g1 g3 hty hm)
          · intro x hx
            rcases List.mem_append.mp hx with hx | hx
            · obtain ⟨c, g1, g2⟩ := h4 x hx
              exact ⟨c, List.mem_cons_of_mem _ g1, g2⟩
            · rw [List.mem_singleton] at hx
              subst hx
              exact ⟨b, List.mem_cons_self, hb⟩
          · intro c hc
            rcases List.mem_cons.mp hc with rfl | hc
            · exact ⟨hbl, m, by simp, hb⟩
            · obtain ⟨g1, x, g2, g3⟩ := h5 c hc
              exact ⟨g1, x, by simp [g2], g3⟩
      · rcases hcases with he | he
        · rw [he]
          refine ih (done ++ [p]) s (fun q hq => hl q (by simp [hq])) (fun q hq => hu q (by simp [hq])) h1 h2 ?_ h4 h5
          intro m'
          rw [h3]
          constructor
          · rintro ⟨g1, q, g2, g3⟩
            exact ⟨g1, q, by simp [g2], g3⟩
          · rintro ⟨g1, q, g2, g3⟩
            rcases List.mem_append.mp g2 with g2 | g2
            · exact ⟨g1, q, g2, g3⟩
            · rw [List.mem_singleton] at g2
              subst g2
              exact absurd ⟨m', g1, g3⟩ hex
        · exact absurd he hex
  have := key packets [] ([], []) hl hunf (by simp) (by simp) (by simp) (by simp) (by simp)
  simpa [actedOn] using this

/-! ## Many computers -/

/-- **C116, many computers.**  At any moment of any run, at any node on which communities are registered, whatever was
sent to it, forgeries excepted, lost, repeated or in whatever order, and in whatever order the threads of the pool call the
community: it has acted on no message twice, and on messages only that were signed by the key holder and that were sent
to this node. -/
theorem C116_network (R : Ring) (pk : Ed25519PublicKey) (types : Bytes → UInt8 → List Kind)
    (Signed : Message → Prop) (hconf : ∀ m, Signed m → m.Conforms types)
    (ls : List WLabel) (w : World) (h : World.init.run ls = some w) (k : Nat)
    (host : Host) (hk : w.hosts[k]? = some host) (cs : List Community) (n : Nat) (hn : n ≤ usizeMax)
    (hnode : host.listener = node cs n)
    (hunf : ∀ d ∈ sentTo host.address ls, NotForged R pk Signed (d.bytes.take n))
    (id : Nat) (packets : List Packet)
    (hp : packets.Perm (packetsFor id (host.listener.communityCalls host.state.trace))) :
    (actedOn R pk types packets).1.Nodup ∧
    (∀ m ∈ (actedOn R pk types packets).1, Signed m ∧
      ∃ d ∈ sentTo host.address ls, AcceptedAs R pk ⟨d.bytes.take n⟩ m) ∧
    ∀ m, m.payloads.map (·.1) = types m.mid.1 m.type →
      (∃ p ∈ packetsFor id (host.listener.communityCalls host.state.trace), AcceptedAs R pk p m) →
      m ∈ (actedOn R pk types packets).1 := by
  have sent : ∀ p ∈ packets, ∃ d ∈ sentTo host.address ls, p = ⟨d.bytes.take n⟩ := by
    intro p hpp
    have hmem := hp.mem_iff.mp hpp
    simp only [packetsFor, List.mem_map, List.mem_filter] at hmem
    obtain ⟨call, ⟨hc, -⟩, rfl⟩ := hmem
    obtain ⟨d, hd, -, -, -, -, -, -, -, h5, -⟩ := C62_community ls w h k host hk cs n hnode call hc
    exact ⟨d, hd, by rw [h5]⟩
  have all := C116 R pk types Signed hconf packets
    (by
      intro p hpp
      obtain ⟨d, -, rfl⟩ := sent p hpp
      simp only [List.length_take]
      omega)
    (by
      intro p hpp
      obtain ⟨d, hd, rfl⟩ := sent p hpp
      exact hunf d hd)
  obtain ⟨h1, h2, h3⟩ := all
  refine ⟨h1, fun m hm => ⟨h2 m hm, ?_⟩, ?_⟩
  · obtain ⟨-, p, hpp, ha⟩ := (h3 m).mp hm
    obtain ⟨d, hd, rfl⟩ := sent p hpp
    exact ⟨d, hd, ha⟩
  · rintro m hty ⟨p, hpp, ha⟩
    exact (h3 m).mpr ⟨hty, p, hp.mem_iff.mpr hpp, ha⟩

theorem upTo_run (W : WorldLife) (n : Nat) : World.init.run (W.upTo n) = some (W.state n) := by
  induction n with
  | zero => simp [WorldLife.upTo, World.run, W.start]
  | succ n ih =>
    have hst := W.step n
    unfold WorldLife.upTo at ih ⊢
    rw [List.range_succ, List.filterMap_append, World.run_append, ih]
    cases hx : W.label n with
    | none =>
      rw [hx] at hst
      simp only at hst
      simp [hx, World.run, hst]
    | some x =>
      rw [hx] at hst
      simp only at hst
      simp [hx, World.run, hst]

/-- **C116, exactly once.**  A message of the key holder, signed and sent again and again over a network that may lose and
repeat what it likes but not lose everything, to a node of which no community panics: from some moment on, the community
with its mid has acted on it exactly once, and remains so for ever. -/
theorem C116_live (R : Ring) (pk : Ed25519PublicKey) (types : Bytes → UInt8 → List Kind)
    (Signed : Message → Prop) (hconf : ∀ m, Signed m → m.Conforms types)
    (W : WorldLife) (n0 k : Nat) (host : Host) (hk : (W.state n0).hosts[k]? = some host)
    (cs : List Community) (size : Nat) (hsz : size ≤ usizeMax) (hnode : host.listener = node cs size)
    (hcs : ∀ c ∈ cs, ∀ h d a, c.onReceive h d a ≠ .panic) (hf : W.FairTo k) (hs : W.SmoothAt k)
    (hunf : ∀ n, ∀ d ∈ sentTo host.address (W.upTo n), NotForged R pk Signed (d.bytes.take size))
    (m : Message) (hm : Signed m) (b sig : Bytes) (hbody : m.Body pk b) (hsig : sig.length = 64)
    (hv : R.verify pk.1 b sig = true) (ht : reserved m.type = false) (hsize : (b ++ sig).length ≤ size)
    (c : Community) (hc : lastWith m.mid.1 cs = some c)
    (sender : SocketAddr) (hrep : W.Repeats sender host.address ⟨b ++ sig⟩)
    (hnet : W.FairLossy host.address ⟨b ++ sig, sender⟩) :
    ∃ n1, ∀ n, n1 ≤ n → ∃ s, (W.state n).hosts[k]? = some ⟨host.address, host.listener, s⟩ ∧
      ∀ packets : List Packet, packets.Perm (packetsFor c.id (host.listener.communityCalls s.trace)) →
        (actedOn R pk types packets).1.Nodup ∧ m ∈ (actedOn R pk types packets).1 := by
  have hh : HasHeader ⟨b ++ sig⟩ m.mid.1 m.type := by
    obtain ⟨w, hw⟩ := body_shape hbody
    exact ⟨m.mid.2, authentication ⟨pk, m.encryptionKey⟩ ++ w ++ sig, by simp [hw]⟩
  have hacc : AcceptedAs R pk ⟨b ++ sig⟩ m := by
    obtain ⟨h1, h2, h3, h4⟩ := signed_reads R pk m (hconf m hm).2 b hbody sig hsig hv (by omega)
    exact ⟨_, _, _, _, h1, h2, h3, h4⟩
  obtain ⟨n1, s1, h1, h2, h3⟩ := C91_community W n0 k host hk cs size hnode hcs hf hs sender ⟨b ++ sig⟩ hrep hnet
    m.mid m.type hh ht hsize c hc 1
  obtain ⟨nb, hb1, hb2⟩ := W.booted n0 k host hk
  obtain ⟨E, -, -, -, hE, -⟩ := W.view nb k host.address host.listener hb2 hf hs
  refine ⟨n1, fun n hn => ?_⟩
  have hstate : ∀ j, nb ≤ j → (W.state j).hosts[k]? = some ⟨host.address, host.listener, E.state (j - nb)⟩ := by
    intro j hj
    have := hE (j - nb)
    rw [show nb + (j - nb) = j by omega] at this
    exact this
  have e1 := hstate n1 (by omega)
  rw [h2] at e1
  have es1 : s1 = E.state (n1 - nb) := by simpa using e1
  refine ⟨E.state (n - nb), hstate n (by omega), fun packets hp => ?_⟩
  have net := C116_network R pk types Signed hconf (W.upTo n) (W.state n) (upTo_run W n) k _ (hstate n (by omega)) cs size
    hsz hnode (hunf n) c.id packets hp
  refine ⟨net.1, net.2.2 m (hconf m hm).1 ⟨⟨b ++ sig⟩, ?_, hacc⟩⟩
  have hpre : s1.trace <+: (E.state (n - nb)).trace := by
    rw [es1]
    exact E.trace_le (by omega)
  obtain ⟨more, hmore⟩ := hpre
  have hcall : (⟨c.id, Header.pyIpv8Header m.mid m.type, ⟨⟨b ++ sig⟩, 0⟩, ⟨sender⟩⟩ : Call) ∈
      host.listener.communityCalls (E.state (n - nb)).trace := by
    have := List.count_pos_iff.mp (show 0 < _ from h3)
    rw [← hmore]
    simp only [Listener.communityCalls, List.flatMap_append, List.mem_append] at this ⊢
    exact .inl this
  simp only [packetsFor, List.mem_map, List.mem_filter]
  exact ⟨_, ⟨hcall, by simp⟩, rfl⟩

/-! ## The hypotheses can be met -/

/-- The agreement of the examples. -/
abbrev onceTypes : Bytes → UInt8 → List Kind := fun _ t => if t = 246 then [.time] else []

theorem onceTypes_conforms : ∀ m, m = exampleAuthentic → m.Conforms onceTypes := by
  rintro _ rfl
  exact exampleAuthentic_conforms

/-- `C116_safe` and `C116`: the signed message of C63, any number of times, among packets that are not accepted. -/
example (packets : List Packet) (h : ∀ p ∈ packets, p = exampleSigned ∨ p = ⟨[1, 2, 3]⟩) (hin : exampleSigned ∈ packets) :
    (actedOn toyRing (FixedBytes.replicate 32 9) onceTypes packets).1 = [exampleAuthentic] := by
  have all := C116 toyRing (FixedBytes.replicate 32 9) onceTypes (· = exampleAuthentic) onceTypes_conforms packets
    (by intro p hp; rcases h p hp with rfl | rfl <;> decide +kernel)
    (by
      intro p hp
      rcases h p hp with rfl | rfl
      · exact exampleAuthentic_notForged
      · intro b sig e hs
        have := congrArg List.length e
        rw [List.length_append, hs] at this
        simp at this)
  have hmem := (all.2.2 exampleAuthentic).mpr ⟨rfl, _, hin, exampleSigned_accepted⟩
  generalize (actedOn toyRing (FixedBytes.replicate 32 9) onceTypes packets).1 = l at all hmem
  obtain ⟨h1, h2, -⟩ := all
  match l, h1, h2, hmem with
  | [], _, _, hmem => cases hmem
  | [x], _, h2, _ => rw [h2 x (by simp)]
  | x :: y :: _, h1, h2, _ =>
    have hx := h2 x (by simp)
    have hy := h2 y (by simp)
    rw [hx, hy] at h1
    simp at h1

/-- `C116_any`: the agreement of the examples, on any packet. -/
example (packet : Packet) (hl : packet.bytes.length ≤ usizeMax) (seen : List Bytes) :
    actOnce toyRing (FixedBytes.replicate 32 9) onceTypes seen packet.startDeserialize ≠ .panic :=
  C116_any toyRing (FixedBytes.replicate 32 9) onceTypes
    (by intro mid t k hk; simp only [onceTypes] at hk; split at hk <;> simp at hk; rw [hk]; simp) packet hl seen

/-- The packet of the examples, in two parts. -/
theorem exampleSigned_parts : exampleSigned = ⟨exampleBody ++ toyRing.sign (FixedBytes.replicate 32 9) exampleBody⟩ := by
  decide +kernel

theorem lossyLife_sent (a : SocketAddr) (l : Listener) (h1 : l.receivers.length = 1) (d : Datagram) (n : Nat) :
    ∀ x ∈ sentTo a ((lossyLife a l h1 d).upTo n), x = d := by
  intro x hx
  simp only [sentTo, List.mem_map, List.mem_filter, List.mem_flatMap, WorldLife.upTo, List.mem_filterMap] at hx
  obtain ⟨⟨b, y⟩, ⟨⟨lab, ⟨j, -, hj⟩, he⟩, -⟩, rfl⟩ := hx
  cases j with
  | zero =>
    have hj : WLabel.boot a l = lab := Option.some.inj hj
    subst hj
    cases he
  | succ j =>
    have hj : lossyLabel a d (j % 9) = lab := Option.some.inj hj
    subst hj
    have hlt : j % 9 < 9 := Nat.mod_lt _ (by omega)
    match hm : j % 9, hlt with
    | 0, _ => rw [hm] at he; simp [lossyLabel, emitted] at he; exact he.2
    | 1, _ => rw [hm] at he; cases he
    | 2, _ => rw [hm] at he; simp [lossyLabel, emitted] at he; exact he.2
    | 3, _ => rw [hm] at he; cases he
    | 4, _ => rw [hm] at he; cases he
    | 5, _ => rw [hm] at he; cases he
    | 6, _ => rw [hm] at he; cases he
    | 7, _ => rw [hm] at he; cases he
    | 8, _ => rw [hm] at he; cases he

/-- `C116_network` and `C116_live`: the message of C63, sent for ever over a network that never stops losing, to the node of
C91. -/
example : ∃ (c : Community) (W : WorldLife) (n1 : Nat), c.id = 2 ∧
    (∀ n, ∃ m, n ≤ m ∧ W.label m = some (.lose 0)) ∧
    ∀ n, n1 ≤ n → ∃ s, (W.state n).hosts[0]? = some ⟨.v4 9 9 9 9 9, node exampleNode 2048, s⟩ ∧
      ∀ packets : List Packet, packets.Perm (packetsFor c.id ((node exampleNode 2048).communityCalls s.trace)) →
        (actedOn toyRing (FixedBytes.replicate 32 9) onceTypes packets).1.Nodup ∧
        exampleAuthentic ∈ (actedOn toyRing (FixedBytes.replicate 32 9) onceTypes packets).1 := by
  obtain ⟨c, hc, hid⟩ : ∃ c, lastWith (List.replicate 20 8) exampleNode = some c ∧ c.id = 2 := ⟨_, rfl, rfl⟩
  obtain ⟨h1, h2, h3, h4, h5⟩ :=
    lossyLife_hypotheses (.v4 9 9 9 9 9) (node exampleNode 2048) rfl ⟨exampleSigned.bytes, .v4 1 2 3 4 5⟩
  have hbytes : exampleSigned.bytes = exampleBody ++ toyRing.sign (FixedBytes.replicate 32 9) exampleBody := by
    rw [exampleSigned_parts]
  obtain ⟨n1, h⟩ := C116_live toyRing (FixedBytes.replicate 32 9) onceTypes (· = exampleAuthentic) onceTypes_conforms
    (lossyLife (.v4 9 9 9 9 9) (node exampleNode 2048) rfl ⟨exampleSigned.bytes, .v4 1 2 3 4 5⟩) 1 0
    ⟨.v4 9 9 9 9 9, node exampleNode 2048, _⟩ rfl exampleNode 2048 (by decide) rfl
    (by
      intro c hc h d a
      simp only [exampleNode, List.mem_cons, List.not_mem_nil, or_false] at hc
      rcases hc with rfl | rfl <;> simp [exampleCommunity]) h1 h2
    (by
      intro n d hd
      have hd' := lossyLife_sent _ _ _ _ n d hd
      rw [hd', List.take_of_length_le (by decide +kernel)]
      exact exampleAuthentic_notForged)
    exampleAuthentic rfl exampleBody (toyRing.sign (FixedBytes.replicate 32 9) exampleBody) exampleAuthentic_body
    (by decide +kernel) (by decide +kernel) (by decide) (by decide +kernel) c hc (.v4 1 2 3 4 5)
    (by rw [← hbytes]; exact h3) (by rw [← hbytes]; exact h4)
  exact ⟨c, _, n1, hid, h5, h⟩

end Ipv8
