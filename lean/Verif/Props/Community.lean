import Verif.Props.Crypto
import Verif.Model.Community
/-!
# Properties C39 – C42, C58, C70: registry and routing
-/

namespace Ipv8
open Spec PacketDeserializer

/-! ## Specification -/

namespace Spec

/-- The community registered under `mid` by a sequence of registrations: the last one with that mid. -/
def lastWith (mid : Bytes) (cs : List Community) : Option Community :=
  (cs.filter (fun c => c.mid == mid)).getLast?

/-- The message types the library keeps for itself: 235–244, 247, 248, 251–255. -/
def reserved (t : UInt8) : Bool :=
  (235 ≤ t && t ≤ 244) || t == 247 || t == 248 || 251 ≤ t

/-- The names of the messages of the predecessor protocol, by message type. -/
def legacyName (t : UInt8) : Option String :=
  match t.toNat with
  | 235 => some "missing-last-message"
  | 236 => some "dynamic-settings"
  | 237 => some "undo-other"
  | 238 => some "undo-own"
  | 239 => some "on-missing-message"
  | 240 => some "missing-subjective-set"
  | 241 => some "subjective-set"
  | 242 => some "revoke"
  | 243 => some "authorize"
  | 244 => some "destroy-community"
  | 247 => some "on-missing-identity"
  | 248 => some "on-identity"
  | 251 => some "signature-response"
  | 252 => some "signature-request"
  | 253 => some "missing-proof"
  | 254 => some "on-missing-sequence"
  | 255 => some "reserved-255"
  | _ => none

end Spec

/-- A registry after a sequence of `add_community` calls on a fresh one. -/
def registered (cs : List Community) : CommunityRegistry :=
  cs.foldl (fun r c => (r.addCommunity c).2) CommunityRegistry.default

/-! ## C39 -/

theorem get_insert (m : List (Bytes × Community)) (k k' : Bytes) (v : Community) :
    CommunityRegistry.get (CommunityRegistry.insert m k v) k' =
      if k = k' then some v else CommunityRegistry.get m k' := by
  unfold CommunityRegistry.get CommunityRegistry.insert
  by_cases h : k = k'
  · subst h; simp
  · rw [if_neg h, List.find?_cons_of_neg (by simpa using h)]
    congr 1
    induction m with
    | nil => rfl
    | cons e m ih =>
      by_cases h1 : e.1 = k
      · have h2 : ¬ e.1 = k' := by rw [h1]; exact h
        rw [List.filter_cons_of_neg (by simp [h1]), List.find?_cons_of_neg (by simpa using h2), ih]
      · rw [List.filter_cons_of_pos (by simp [h1])]
        by_cases h2 : e.1 = k'
        · rw [List.find?_cons_of_pos (by simpa using h2), List.find?_cons_of_pos (by simpa using h2)]
        · rw [List.find?_cons_of_neg (by simpa using h2), List.find?_cons_of_neg (by simpa using h2),
            ih]

/-- C39. Adding always succeeds, and what is registered under a mid is what was added last with it. -/
theorem C39 (cs : List Community) (mid : Bytes) :
    CommunityRegistry.get (registered cs).communities mid = lastWith mid cs := by
  have h : ∀ (cs : List Community) (r : CommunityRegistry),
      CommunityRegistry.get (cs.foldl (fun r c => (r.addCommunity c).2) r).communities mid =
        (lastWith mid cs).or (CommunityRegistry.get r.communities mid) := by
    intro cs
    induction cs with
    | nil => intro r; simp [lastWith]
    | cons c cs ih =>
      intro r
      rw [List.foldl_cons, ih]
      simp only [CommunityRegistry.addCommunity, get_insert, lastWith]
      by_cases hc : c.mid = mid
      · rw [if_pos hc, List.filter_cons_of_pos (by simpa using hc), List.getLast?_cons]
        cases (cs.filter (fun c => c.mid == mid)).getLast? <;> rfl
      · rw [if_neg hc, List.filter_cons_of_neg (by simpa using hc)]
  have := h cs CommunityRegistry.default
  simpa [registered, CommunityRegistry.default, CommunityRegistry.get] using this

/-- C39. Adding returns `Ok`, and never affects another mid. -/
theorem C39_others (r : CommunityRegistry) (c : Community) (mid : Bytes) (h : c.mid ≠ mid) :
    (r.addCommunity c).1 = .ok () ∧
    CommunityRegistry.get (r.addCommunity c).2.communities mid =
      CommunityRegistry.get r.communities mid := by
  refine ⟨rfl, ?_⟩
  simp [CommunityRegistry.addCommunity, get_insert, h]

/-- C39. A mid is stored at most once, so that replacing a community really drops the old one. -/
theorem C39_one_each (cs : List Community) :
    ((registered cs).communities.map (·.1)).Nodup := by
  have h : ∀ (cs : List Community) (r : CommunityRegistry), (r.communities.map (·.1)).Nodup →
      ((cs.foldl (fun r c => (r.addCommunity c).2) r).communities.map (·.1)).Nodup := by
    intro cs
    induction cs with
    | nil => intro r hr; exact hr
    | cons c cs ih =>
      intro r hr
      apply ih
      simp only [CommunityRegistry.addCommunity, CommunityRegistry.insert, List.map_cons,
        List.nodup_cons]
      constructor
      · simp
      · exact hr.sublist (List.filter_sublist.map _)
  exact h cs _ (by simp [CommunityRegistry.default])

/-! ## C40 – C42 -/

/-- The packet starts with a header for `mid` and message type `t`. -/
def HasHeader (p : Packet) (mid : Bytes) (t : UInt8) : Prop :=
  mid.length = 20 ∧ ∃ rest, p.bytes = Spec.header mid t ++ rest

theorem peek_of_hasHeader {p : Packet} {mid : Bytes} {t : UInt8} (h : HasHeader p mid t) :
    p.startDeserialize.peekHeader = .ok (Header.ofMid mid t) := by
  obtain ⟨hl, rest, hb⟩ := h
  have := (C10_read ⟨mid, hl⟩ t [] rest).1
  simp only [List.nil_append, List.length_nil] at this
  rw [← hb] at this
  exact this

/-- Either a packet has a header or peeking at it is an error. -/
theorem hasHeader_or (p : Packet) :
    (∃ mid t, HasHeader p mid t) ∨ ∃ e, p.startDeserialize.peekHeader = .err e := by
  have h := C11_peek p.bytes 0 (Nat.zero_le _)
  simp only [List.drop_zero] at h
  by_cases hc : 23 ≤ p.bytes.length ∧ p.bytes.take 2 = [0, 2]
  · left
    obtain ⟨t, ht, _⟩ := h.1 hc
    refine ⟨(p.bytes.drop 2).take 20, t, by simp; omega, p.bytes.drop 23, ?_⟩
    have e1 : p.bytes = p.bytes.take 2 ++ p.bytes.drop 2 := (List.take_append_drop _ _).symm
    have e2 : p.bytes.drop 2 = (p.bytes.drop 2).take 20 ++ p.bytes.drop 22 := by
      have := (List.take_append_drop 20 (p.bytes.drop 2)).symm
      rwa [List.drop_drop] at this
    have e3 : p.bytes.drop 22 = t :: p.bytes.drop 23 := by
      obtain ⟨hlt, hget⟩ := List.getElem?_eq_some_iff.mp ht
      rw [← hget]
      exact List.drop_eq_getElem_cons hlt
    rw [hc.2] at e1
    rw [e1, Spec.header]
    conv => lhs; rw [e2, e3]
    simp
  · right
    have := h.2 hc
    have heq : p.startDeserialize.peekHeader = peekHeader ⟨⟨p.bytes⟩, 0⟩ := rfl
    rw [heq]
    cases hp : peekHeader ⟨⟨p.bytes⟩, 0⟩ with
    | ok x => simp [hp, Outcome.isErr] at this
    | err e => exact ⟨e, rfl⟩
    | panic => simp [hp, Outcome.isErr] at this

theorem reserved_iff (t : UInt8) :
    (deprecatedMessages.lookup t.toUInt64).isSome = true ↔ reserved t = true := by
  have key : ∀ n : Fin 256, (deprecatedMessages.lookup (UInt8.ofNat n.val).toUInt64).isSome = true ↔
      reserved (UInt8.ofNat n.val) = true := by decide +kernel
  have := key ⟨t.toNat, t.toNat_lt⟩
  simpa using this

/-- What forwarding does, completely, with log lines. -/
theorem forwardLogged_eq (cs : List Community) (p : Packet) (a : Address) (mid : Bytes) (t : UInt8)
    (h : HasHeader p mid t) :
    (registered cs).forwardLogged p a =
      match lastWith mid cs with
      | none => (.err .unknownCommunity, [], [])
      | some c =>
        match deprecatedMessages.lookup t.toUInt64 with
        | some m => warnDeprecated m a
        | none => (c.onReceive (Header.ofMid mid t) p.startDeserialize a,
          [⟨c.id, Header.ofMid mid t, p.startDeserialize, a⟩], []) := by
  unfold CommunityRegistry.forwardLogged
  simp only [peek_of_hasHeader h]
  have hm : (Header.ofMid mid t).midHash = some mid := rfl
  simp only [hm, C39]
  cases lastWith mid cs with
  | none => rfl
  | some c => rfl

/-- What forwarding does, completely. -/
theorem forward_eq (cs : List Community) (p : Packet) (a : Address) (mid : Bytes) (t : UInt8)
    (h : HasHeader p mid t) :
    (registered cs).forwardMessage p a =
      match lastWith mid cs with
      | none => (.err .unknownCommunity, [])
      | some c =>
        if reserved t then (.ok (), [])
        else (c.onReceive (Header.ofMid mid t) p.startDeserialize a,
          [⟨c.id, Header.ofMid mid t, p.startDeserialize, a⟩]) := by
  unfold CommunityRegistry.forwardMessage
  rw [forwardLogged_eq cs p a mid t h]
  cases lastWith mid cs with
  | none => rfl
  | some c =>
    have hr := reserved_iff t
    cases hl : deprecatedMessages.lookup t.toUInt64 with
    | none =>
      rw [hl] at hr
      have : reserved t = false := by
        cases hx : reserved t with
        | false => rfl
        | true => simp [hx] at hr
      simp [this]
    | some m =>
      rw [hl] at hr
      have : reserved t = true := hr.mp rfl
      simp [this, warnDeprecated]

/-- C40. A packet for a registered mid with an unreserved message type: `on_receive` of the community
registered last under that mid is called exactly once and nothing else is, with the header, the whole
packet and the cursor at its start, and the sender's address; its result is the result. -/
theorem C40 (cs : List Community) (p : Packet) (a : Address) (mid : FixedBytes 20) (t : UInt8)
    (h : HasHeader p mid.1 t) (c : Community) (hc : lastWith mid.1 cs = some c)
    (ht : reserved t = false) :
    (registered cs).forwardMessage p a =
      (c.onReceive (Header.pyIpv8Header mid t) ⟨p, 0⟩ a,
        [⟨c.id, Header.pyIpv8Header mid t, ⟨p, 0⟩, a⟩]) := by
  rw [forward_eq cs p a mid.1 t h, hc]
  simp only [ht]
  rfl

/-- C41. Reserved message types are acknowledged without calling the community. -/
theorem C41 (cs : List Community) (p : Packet) (a : Address) (mid : FixedBytes 20) (t : UInt8)
    (h : HasHeader p mid.1 t) (c : Community) (hc : lastWith mid.1 cs = some c) :
    (reserved t = true → (registered cs).forwardMessage p a = (.ok (), [])) ∧
    (reserved t = false → ((registered cs).forwardMessage p a).2.length = 1) := by
  rw [forward_eq cs p a mid.1 t h, hc]
  constructor <;> intro ht <;> simp [ht]

/-- C41. Exactly 17 of the 256 types are reserved; the introduction and puncture types are not. -/
theorem C41_count : ((List.range 256).filter (fun n => reserved (UInt8.ofNat n))).length = 17 ∧
    reserved 245 = false ∧ reserved 246 = false ∧ reserved 249 = false ∧ reserved 250 = false := by
  decide +kernel

/-- C42. If the header is invalid or no community has the mid, the result is an error and no community is
called. -/
theorem C42 (cs : List Community) (p : Packet) (a : Address) :
    ((∀ mid t, ¬ HasHeader p mid t) → ((registered cs).forwardMessage p a).1.isErr = true ∧
      ((registered cs).forwardMessage p a).2 = []) ∧
    (∀ mid t, HasHeader p mid t → lastWith mid cs = none →
      (registered cs).forwardMessage p a = (.err .unknownCommunity, [])) ∧
    (∀ mid t c, HasHeader p mid t → lastWith mid cs = some c → reserved t = false →
      ((registered cs).forwardMessage p a).1 = c.onReceive (Header.ofMid mid t) ⟨p, 0⟩ a) := by
  refine ⟨?_, ?_, ?_⟩
  · intro hno
    rcases hasHeader_or p with ⟨mid, t, h⟩ | ⟨e, he⟩
    · exact absurd h (hno mid t)
    · unfold CommunityRegistry.forwardMessage CommunityRegistry.forwardLogged
      simp [he, Outcome.isErr]
  · intro mid t h hn
    rw [forward_eq cs p a mid t h, hn]
  · intro mid t c h hc ht
    rw [forward_eq cs p a mid t h, hc]
    simp only [ht]
    rfl

/-- C42. Conversely an error means one of: invalid header, unknown mid, or the community's own error;
and forwarding panics only if the community itself does. -/
theorem C42_converse (cs : List Community) (p : Packet) (a : Address) :
    (((registered cs).forwardMessage p a).1.isErr = true →
      (∀ mid t, ¬ HasHeader p mid t) ∨
      (∃ mid t, HasHeader p mid t ∧ (lastWith mid cs = none ∨
        ∃ c, lastWith mid cs = some c ∧ (c.onReceive (Header.ofMid mid t) ⟨p, 0⟩ a).isErr = true))) ∧
    (((registered cs).forwardMessage p a).1 = .panic →
      ∃ mid t c, HasHeader p mid t ∧ lastWith mid cs = some c ∧
        c.onReceive (Header.ofMid mid t) ⟨p, 0⟩ a = .panic) := by
  rcases hasHeader_or p with ⟨mid, t, h⟩ | ⟨e, he⟩
  · rw [forward_eq cs p a mid t h]
    cases hc : lastWith mid cs with
    | none =>
      constructor
      · intro _; exact .inr ⟨mid, t, h, .inl hc⟩
      · intro hp; simp at hp
    | some c =>
      simp only
      by_cases ht : reserved t = true
      · simp [ht, Outcome.isErr]
      · simp only [ht]
        constructor
        · intro herr; exact .inr ⟨mid, t, h, .inr ⟨c, hc, herr⟩⟩
        · intro hp; exact ⟨mid, t, c, h, hc, hp⟩
  · constructor
    · intro _
      left
      intro mid t h
      rw [peek_of_hasHeader h] at he
      cases he
    · intro hp
      unfold CommunityRegistry.forwardMessage CommunityRegistry.forwardLogged at hp
      simp [he] at hp

/-- C42. A community whose mid is not 20 bytes long never receives anything: forwarding calls, if
anything, a community registered under a 20-byte mid. -/
theorem C42_mid_length (cs : List Community) (p : Packet) (a : Address) (call : Call)
    (h : call ∈ ((registered cs).forwardMessage p a).2) :
    ∃ c ∈ cs, c.mid.length = 20 ∧ call.community = c.id := by
  rcases hasHeader_or p with ⟨mid, t, hh⟩ | ⟨e, he⟩
  · rw [forward_eq cs p a mid t hh] at h
    cases hc : lastWith mid cs with
    | none => simp [hc] at h
    | some c =>
      simp only [hc] at h
      split at h
      · simp at h
      · simp only [List.mem_singleton] at h
        have hm := List.mem_of_getLast? hc
        simp only [List.mem_filter, beq_iff_eq] at hm
        exact ⟨c, hm.1, by rw [hm.2]; exact hh.1, by rw [h]⟩
  · unfold CommunityRegistry.forwardMessage CommunityRegistry.forwardLogged at h
    simp [he] at h

/-! ## C58 -/

theorem legacyName_eq (t : UInt8) : deprecatedMessages.lookup t.toUInt64 = legacyName t := by
  have key : ∀ n : Fin 256, deprecatedMessages.lookup (UInt8.ofNat n.val).toUInt64 =
      legacyName (UInt8.ofNat n.val) := by decide +kernel
  have := key ⟨t.toNat, t.toNat_lt⟩
  simpa using this

/-- C58. What is logged for a message to a registered community: one warning with the legacy name and the
sender for a reserved type, nothing for the others. -/
theorem C58 (cs : List Community) (p : Packet) (a : Address) (mid : Bytes) (t : UInt8)
    (h : HasHeader p mid t) (c : Community) (hc : lastWith mid cs = some c) :
    ((registered cs).forwardLogged p a).2.2 =
      (match legacyName t with
       | some name => [⟨name, a⟩]
       | none => []) := by
  rw [forwardLogged_eq cs p a mid t h, hc, ← legacyName_eq]
  cases deprecatedMessages.lookup t.toUInt64 <;> rfl

/-- C58. A name is logged exactly for the reserved types, and different reserved types have different
names, so the log line identifies the type. -/
theorem C58_names (t u : UInt8) :
    ((legacyName t).isSome = reserved t) ∧
    (reserved t = true → legacyName t = legacyName u → t = u) := by
  have k1 : ∀ n : Fin 256, (legacyName (UInt8.ofNat n.val)).isSome =
      reserved (UInt8.ofNat n.val) := by decide +kernel
  have k2 : ∀ n : Fin 256, reserved (UInt8.ofNat n.val) = true → ∀ m : Fin 256,
      legacyName (UInt8.ofNat n.val) = legacyName (UInt8.ofNat m.val) → n = m := by
    decide +kernel
  have h1 := k1 ⟨t.toNat, t.toNat_lt⟩
  have h2 := k2 ⟨t.toNat, t.toNat_lt⟩
  simp only [UInt8.ofNat_toNat] at h1 h2
  refine ⟨h1, fun hr he => ?_⟩
  have h3 := h2 hr ⟨u.toNat, u.toNat_lt⟩
  simp only [UInt8.ofNat_toNat, Fin.mk.injEq] at h3
  exact UInt8.toNat_inj.mp (h3 he)

/-- C58. Nothing is logged for packets that reach no community, and for every packet whatever there is at
most one effect: one call, or one warning, or neither. -/
theorem C58_one (cs : List Community) (p : Packet) (a : Address) :
    (((registered cs).forwardLogged p a).1.isErr = true →
      ((registered cs).forwardLogged p a).2.2 = []) ∧
    ((registered cs).forwardLogged p a).2.1.length +
      ((registered cs).forwardLogged p a).2.2.length ≤ 1 := by
  rcases hasHeader_or p with ⟨mid, t, h⟩ | ⟨e, he⟩
  · rw [forwardLogged_eq cs p a mid t h]
    cases lastWith mid cs with
    | none => simp
    | some c => cases deprecatedMessages.lookup t.toUInt64 <;> simp [warnDeprecated, Outcome.isErr]
  · unfold CommunityRegistry.forwardLogged
    simp [he]

/-- A community that accepts everything. -/
def exampleCommunity (id : Nat) (b : UInt8) : Community :=
  ⟨id, List.replicate 20 b, fun _ _ _ => .ok ()⟩

example : HasHeader ⟨[0, 2] ++ List.replicate 20 7 ++ [246, 1, 2]⟩ (List.replicate 20 7) 246 :=
  ⟨by decide, [1, 2], by decide⟩

example : (lastWith (List.replicate 20 7)
    [exampleCommunity 1 7, exampleCommunity 2 8, exampleCommunity 3 7]).map (·.id) = some 3 := by
  decide

/-- The hypotheses of C58 are met by a legacy message to a registered community. -/
example : ((registered [exampleCommunity 1 7]).forwardLogged
    ⟨[0, 2] ++ List.replicate 20 7 ++ [243, 1, 2]⟩ ⟨.v4 1 2 3 4 5⟩).2.2 =
    [⟨"authorize", ⟨.v4 1 2 3 4 5⟩⟩] :=
  C58 _ _ _ (List.replicate 20 7) 243 ⟨by decide, [1, 2], by decide⟩ _ rfl

/-! ## C70: communities identified by a peer's key -/

/-- C70. A peer's identity is the SHA-1 hash of its public key: 20 bytes, the same whatever its address
and flag. -/
theorem C70 (R : Ring) (hR : R.Correct) (key : Ed25519PublicKey) (a : Address) (i : Bool) :
    (Peer.new key a i).getSha1 R = R.sha1 key.1 ∧ ((Peer.new key a i).getSha1 R).length = 20 ∧
    (Peer.new key a i).key = key ∧ (Peer.new key a i).address = a ∧ (Peer.new key a i).intro = i :=
  ⟨rfl, hR.sha1_length _, rfl, rfl, rfl⟩

/-- C70. Who knows only the public key of a community can write packets for it: a packet with the hash
of that key as mid reaches the community whose mid is the identity of a peer with that key, if no later
one has the same mid. -/
theorem C70_reached (R : Ring) (hR : R.Correct) (cs cs' : List Community) (c : Community) (peer : Peer)
    (hc : c.mid = peer.getSha1 R) (hno : ∀ x ∈ cs', x.mid ≠ c.mid) (t : UInt8)
    (ht : reserved t = false) (body : Bytes) (a : Address) :
    ∃ q : Packet,
      Packet.new (Header.pyIpv8Header ⟨R.sha1 peer.key.1, hR.sha1_length _⟩ t) = .ok q ∧
      ((registered (cs ++ c :: cs')).forwardMessage ⟨q.bytes ++ body⟩ a).2 =
        [⟨c.id, Header.pyIpv8Header ⟨R.sha1 peer.key.1, hR.sha1_length _⟩ t,
          ⟨⟨q.bytes ++ body⟩, 0⟩, a⟩] := by
  refine ⟨_, C10_wire _ t, ?_⟩
  have hl : lastWith (R.sha1 peer.key.1) (cs ++ c :: cs') = some c := by
    have h1 : c.mid = R.sha1 peer.key.1 := hc
    have h2 : cs'.filter (fun x => x.mid == R.sha1 peer.key.1) = [] := by
      simp only [List.filter_eq_nil_iff, beq_iff_eq, ← h1]
      exact hno
    simp [lastWith, List.filter_append, h1, h2]
  rw [C40 (cs ++ c :: cs') _ a ⟨R.sha1 peer.key.1, hR.sha1_length _⟩ t ⟨hR.sha1_length _, body, rfl⟩ c
    hl ht]

example : ∃ c : Community, ∃ peer : Peer, c.mid = peer.getSha1 toyRing ∧ peer.key.1 = List.replicate 32 3 :=
  ⟨⟨0, toyRing.sha1 (List.replicate 32 3), fun _ _ _ => .ok ()⟩,
    Peer.new (FixedBytes.replicate 32 3) ⟨.v4 1 2 3 4 5⟩ true, rfl, rfl⟩

/-! ## Cases for the theorems above -/

/-- `C39_others`: adding a community with mid 8… leaves the one with mid 7… found. -/
example : CommunityRegistry.get (((registered [exampleCommunity 1 7]).addCommunity (exampleCommunity 2 8)).2).communities
    (List.replicate 20 7) = CommunityRegistry.get (registered [exampleCommunity 1 7]).communities (List.replicate 20 7) :=
  (C39_others (registered [exampleCommunity 1 7]) (exampleCommunity 2 8) (List.replicate 20 7) (by decide)).2

/-- `C42_mid_length`: a message that is forwarded. -/
example : ∃ c ∈ [exampleCommunity 1 7, exampleCommunity 2 8], c.mid.length = 20 ∧ 2 = c.id :=
  C42_mid_length [exampleCommunity 1 7, exampleCommunity 2 8] ⟨[0, 2] ++ List.replicate 20 8 ++ [246, 1, 2]⟩ ⟨.v4 1 2 3 4 5⟩
    ⟨2, Header.pyIpv8Header (FixedBytes.replicate 20 8) 246, ⟨⟨[0, 2] ++ List.replicate 20 8 ++ [246, 1, 2]⟩, 0⟩, ⟨.v4 1 2 3 4 5⟩⟩
    (by
      rw [C40 _ _ _ (FixedBytes.replicate 20 8) 246 ⟨by decide, [1, 2], by decide⟩ (exampleCommunity 2 8) (by rfl) (by decide)]
      exact List.mem_singleton.mpr rfl)

/-- `C41`: a message for the second of two communities. -/
example := C41 [exampleCommunity 1 7, exampleCommunity 2 8] ⟨[0, 2] ++ List.replicate 20 8 ++ [246, 1, 2]⟩ ⟨.v4 1 2 3 4 5⟩
  (FixedBytes.replicate 20 8) 246 ⟨by decide, [1, 2], by decide⟩ (exampleCommunity 2 8) (by rfl)

/-- `C70_reached`: a community with the key 3… between two others. -/
example := C70_reached toyRing toyRing_correct [exampleCommunity 1 7] [exampleCommunity 2 8]
  ⟨0, toyRing.sha1 (List.replicate 32 3), fun _ _ _ => .ok ()⟩ (Peer.new (FixedBytes.replicate 32 3) ⟨.v4 1 2 3 4 5⟩ true) rfl
  (by simp [exampleCommunity]; decide) 246 (by decide) [1, 2] ⟨.v4 1 2 3 4 5⟩

/-- `C70`: a peer, with the toy scheme. -/
example (key : Ed25519PublicKey) := C70 toyRing toyRing_correct key ⟨.v4 1 2 3 4 5⟩ true

end Ipv8
