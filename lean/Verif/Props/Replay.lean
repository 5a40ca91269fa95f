import Verif.Props.System
/-!
# C72: no freshness
-/

namespace Ipv8

open Spec PacketDeserializer

/-- The schedule that handles one datagram. -/
def roundFor (d : Datagram) : List Label := [.arrive d, .pollEvent, .recv, .start 0, .finish 0, .join]

theorem round_run (cs : List Community) (n : Nat) (s : NetState) (hp : s.phase = .polling)
    (hr : s.ready = false) (hq : s.queue = []) (d : Datagram) :
    ∃ s', (node cs n).run s (roundFor d) = some s' ∧ s'.phase = .polling ∧ s'.ready = false ∧
      s'.queue = [] := by
  rcases s with ⟨q, r, b, ph, tr⟩
  simp only at hp hr hq
  subst hp hr hq
  exact ⟨_, rfl, rfl, rfl, rfl⟩

theorem rounds_run (cs : List Community) (n : Nat) (ds : List Datagram) (s : NetState)
    (hp : s.phase = .polling) (hr : s.ready = false) (hq : s.queue = []) :
    ∃ s', (node cs n).run s (ds.flatMap roundFor) = some s' ∧ s'.phase = .polling ∧ s'.ready = false ∧
      s'.queue = [] := by
  induction ds generalizing s with
  | nil => exact ⟨s, rfl, hp, hr, hq⟩
  | cons d ds ih =>
    obtain ⟨m, h1, h2, h3, h4⟩ := round_run cs n s hp hr hq d
    obtain ⟨s', g1, g2⟩ := ih m h2 h3 h4
    refine ⟨s', ?_, g2⟩
    rw [List.flatMap_cons, run_append, h1]
    exact g1

theorem arrivals_rounds (ds : List Datagram) : arrivals (ds.flatMap roundFor) = ds := by
  induction ds with
  | nil => rfl
  | cons d ds ih => simp [roundFor, arrivals, ih]

/-- C72. Nothing is remembered between datagrams: between two datagrams, the calls made so far are the
calls for each handled datagram one after the other, and those for one datagram depend only on its bytes
(cut to the buffer), its source and the registered communities. -/
theorem C72_no_memory (cs : List Community) (n : Nat) :
    ∃ f : Bytes → SocketAddr → List Call, ∀ (queued : List Datagram) (ls : List Label) (s : NetState),
      (node cs n).run ((node cs n).init queued) ls = some s → idle s.phase = true →
      ∃ handled, queued ++ arrivals ls = handled ++ s.queue ∧
        (node cs n).communityCalls s.trace =
          handled.flatMap (fun d => f (d.bytes.take n) d.source) := by
  refine ⟨fun b a => ((registered cs).forwardMessage ⟨b⟩ ⟨a⟩).2, ?_⟩
  intro queued ls s h hi
  obtain ⟨handled, h1, h2⟩ := C52_history cs n queued ls s h hi
  refine ⟨handled, h1, ?_⟩
  rw [h2]
  simp [callsFor, List.flatMap_map, received]

/-- C72. So signatures do not protect against replay: an authenticated message that its author sent once
can be sent to a node by anybody, any number of times and from any addresses, and each copy makes the
community be called; each time `verify` succeeds and the same payloads are read. -/
theorem C72 (R : Ring) (hR : R.Correct) (kp : KeyPair R) (pk : Ed25519PublicKey)
    (hpk : kp.publicKey = .ok pk) (cs : List Community) (n : Nat) (mid : FixedBytes 20) (t : UInt8)
    (enc : FixedBytes 32) (vs : List AnyPayload)
    (hsd : ∀ x ∈ vs, x.1.SelfDelimiting) (hf : ∀ x ∈ vs, x.1.Fits x.2)
    (p q sg : Packet) (hp : Packet.new (Header.pyIpv8Header mid t) = .ok p)
    (hq : addAll p (⟨.auth, BinMemberAuthenticationPayload.mk pk enc⟩ :: vs) = .ok q)
    (hs : q.sign kp = .ok sg) (hl : sg.bytes.length ≤ usizeMax) (hn : sg.bytes.length ≤ n)
    (c : Community) (hc : lastWith mid.1 cs = some c) (ht : reserved t = false)
    (sources : List SocketAddr) :
    ∃ (ls : List Label) (s : NetState), (node cs n).run ((node cs n).init []) ls = some s ∧
      arrivals ls = sources.map (fun a => ⟨sg.bytes, a⟩) ∧
      (node cs n).communityCalls s.trace =
        sources.map (fun a => ⟨c.id, Header.pyIpv8Header mid t, ⟨sg, 0⟩, ⟨a⟩⟩) ∧
      ∃ d d', popHeader ⟨sg, 0⟩ = (.ok (Header.pyIpv8Header mid t), d) ∧ d.verify R = (.ok true, d') ∧
        readAll d' (vs.map (·.1)) = .ok (vs, ⟨q, q.bytes.length⟩) := by
  obtain ⟨d, d', h1, h2, h3⟩ := C32 R hR kp pk hpk mid t enc vs hsd hf p q sg hp hq hs hl
  have hh : HasHeader sg mid.1 t := by
    rw [C10_wire] at hp
    cases hp
    obtain ⟨w, hw⟩ := addAll_prefix hq
    rw [(C30 R hR kp q).1] at hs
    cases hs
    exact ⟨mid.2, w ++ R.sign kp.key q.bytes, by simp only [hw, List.append_assoc]⟩
  let ds : List Datagram := sources.map (fun a => ⟨sg.bytes, a⟩)
  obtain ⟨s, g1, g2, g3, g4⟩ := rounds_run cs n ds ((node cs n).init []) rfl rfl rfl
  refine ⟨ds.flatMap roundFor, s, g1, arrivals_rounds ds, ?_, d, d', h1, h2, h3⟩
  obtain ⟨handled, k1, k2⟩ := C52_history cs n [] _ s g1 (by rw [g2]; rfl)
  rw [g4, arrivals_rounds] at k1
  simp only [List.nil_append, List.append_nil] at k1
  rw [k2, ← k1]
  have hone : ∀ a, callsFor cs [received n ⟨sg.bytes, a⟩] =
      [⟨c.id, Header.pyIpv8Header mid t, ⟨sg, 0⟩, ⟨a⟩⟩] := fun a =>
    delivered_packet cs n mid t sg hh hn c hc ht a ⟨a⟩
  simp only [ds]
  clear k1 k2 g1 g2 g3 g4
  induction sources with
  | nil => rfl
  | cons a as ih =>
    simp only [List.map_cons, callsFor, List.flatMap_cons] at ih ⊢
    rw [ih]
    have := hone a
    simp only [callsFor, List.flatMap_cons, List.flatMap_nil, List.append_nil] at this
    rw [this]
    rfl

/-- C72. But the crate itself repeats nothing: at every moment, no more community calls have been made than
datagrams have arrived. -/
theorem C72_at_most (cs : List Community) (n : Nat) (queued : List Datagram) (ls : List Label)
    (s : NetState) (h : (node cs n).run ((node cs n).init queued) ls = some s) :
    ((node cs n).communityCalls s.trace).length ≤ (queued ++ arrivals ls).length := by
  obtain ⟨handled, h1, h2, -⟩ := C43 (node cs n) queued ls s h
  obtain ⟨h3, h4⟩ := C43_always (node cs n) queued ls s h
  have hle : (callsOf 0 s.trace).length ≤ (takenIn s.trace).length := by
    rcases h3 0 (by simp [node]) with e | ⟨cur, e⟩
    · rw [e]; exact Nat.le_refl _
    · rw [← e]; simp
  rw [communityCalls_node cs n s.trace (by intro r hr; exact h4 r (by simpa [node] using hr))]
  have hone : ∀ ps : List (Packet × Address), (callsFor cs ps).length ≤ ps.length := by
    intro ps
    induction ps with
    | nil => simp [callsFor]
    | cons x ps ih =>
      simp only [callsFor, List.flatMap_cons, List.length_append, List.length_cons] at ih ⊢
      have : ((registered cs).forwardMessage x.1 x.2).2.length ≤ 1 := by
        simp only [CommunityRegistry.forwardMessage, CommunityRegistry.forwardLogged, Community.receiveLogged, warnDeprecated]
        (repeat' split) <;> simp
      omega
  have := hone (callsOf 0 s.trace)
  rw [h1, List.length_append]
  rw [h2, List.length_map] at hle
  omega

/-- The hypotheses are met: an authenticated message without further payloads, replayed from two addresses. -/
example : ∃ (ls : List Label) (s : NetState),
    (node [exampleCommunity 1 7] 2048).run ((node [exampleCommunity 1 7] 2048).init []) ls = some s ∧
    ((node [exampleCommunity 1 7] 2048).communityCalls s.trace).length = 2 := by
  obtain ⟨ls, s, h1, -, h2, -⟩ := C72 toyRing toyRing_correct ⟨FixedBytes.replicate 32 9⟩
    (FixedBytes.replicate 32 9) rfl [exampleCommunity 1 7] 2048 (FixedBytes.replicate 20 7) 1
    (FixedBytes.replicate 32 0) [] (by simp) (by simp) _ _ _ rfl rfl rfl (by decide +kernel) (by decide +kernel)
    (exampleCommunity 1 7) rfl rfl [.v4 1 1 1 1 1, .v4 2 2 2 2 2]
  exact ⟨ls, s, h1, by rw [h2]; rfl⟩

/-! ## Cases for the theorems above -/

/-- `C72_at_most`: two communities. -/
example (ls : List Label) (s : NetState) (h : (node exampleNode 2048).run ((node exampleNode 2048).init []) ls = some s) :=
  C72_at_most exampleNode 2048 [] ls s h

end Ipv8
