import Verif.Model.Cluster
import Verif.Props.Isolation
import Verif.Props.Linear
import Verif.Props.Authentic
/-!
# C78: many processes, from `send` to the receiver
-/

namespace Ipv8
open Spec

/-! ## Specification -/

/-- The history of process number `k`. -/
def processLog (k : Nat) : List CEv → List (Nat × NEv)
  | [] => []
  | .at j s e :: es => if j = k then (s, e) :: processLog k es else processLog k es
  | .foreign _ _ :: es => processLog k es

/-- What was handed to the network, by `send` or by a foreign host, in order. -/
def emittedIn : List CEv → List (SocketAddr × Datagram)
  | [] => []
  | .at _ _ (.send dest d) :: es => (dest, d) :: emittedIn es
  | .foreign dest d :: es => (dest, d) :: emittedIn es
  | _ :: es => emittedIn es

/-- What arrived at any socket of any process, in order. -/
def arrivedAnywhere : List CEv → List Datagram
  | [] => []
  | .at _ _ (.arrive d) :: es => d :: arrivedAnywhere es
  | _ :: es => arrivedAnywhere es

/-! ## The invariant -/

theorem processLog_append (k : Nat) (l1 l2 : List CEv) :
    processLog k (l1 ++ l2) = processLog k l1 ++ processLog k l2 := by
  induction l1 with
  | nil => rfl
  | cons e l ih =>
    cases e with
    | «at» j s e => simp only [List.cons_append, processLog]; split <;> simp [ih]
    | foreign dest d => simpa [processLog] using ih

theorem emittedIn_append (l1 l2 : List CEv) : emittedIn (l1 ++ l2) = emittedIn l1 ++ emittedIn l2 := by
  induction l1 with
  | nil => rfl
  | cons e l ih =>
    cases e with
    | «at» j s e => cases e <;> simp [emittedIn, ih]
    | foreign dest d => simp [emittedIn, ih]

theorem arrivedAnywhere_append (l1 l2 : List CEv) :
    arrivedAnywhere (l1 ++ l2) = arrivedAnywhere l1 ++ arrivedAnywhere l2 := by
  induction l1 with
  | nil => rfl
  | cons e l ih =>
    cases e with
    | «at» j s e => cases e <;> simp [arrivedAnywhere, ih]
    | foreign dest d => simp [arrivedAnywhere, ih]

theorem processLog_same (k : Nat) (es : List (Nat × NEv)) :
    processLog k (es.map fun e => .at k e.1 e.2) = es := by
  induction es with
  | nil => rfl
  | cons e es ih => simp [processLog, ih]

theorem processLog_other {j k : Nat} (h : j ≠ k) (es : List (Nat × NEv)) :
    processLog k (es.map fun e => .at j e.1 e.2) = [] := by
  induction es with
  | nil => rfl
  | cons e es ih => simp [processLog, h, ih]

theorem emittedIn_map (k : Nat) (es : List (Nat × NEv)) :
    emittedIn (es.map fun e => .at k e.1 e.2) = outgoing es := by
  induction es with
  | nil => rfl
  | cons e es ih =>
    obtain ⟨s, e⟩ := e
    cases e <;> simp [emittedIn, outgoing, ih]

/-- The log of a process only grows, and arrivals get into it only by arriving. -/
theorem node_log (N : Net) (n n' : Node) (x : NLabel) (h : n.step N x = some n') :
    ∃ es, n'.log = n.log ++ es ∧
      ((∀ dest d, x ≠ .arrive dest d) → ∀ s d, (s, NEv.arrive d) ∉ es) := by
  cases x <;> simp only [Node.step] at h
  case arrive dest d =>
    cases h
    exact ⟨_, rfl, fun h => absurd rfl (h dest d)⟩
  case thread t x =>
    split at h
    case h_2 => cases h
    split at h
    case h_1 => cases h
    split at h <;> cases h
    refine ⟨_, rfl, fun _ s d hm => ?_⟩
    obtain ⟨e, -, he⟩ := List.mem_map.mp hm
    cases he
  case setup i s =>
    split at h <;> cases h
    refine ⟨_, rfl, fun _ s' d hm => ?_⟩
    cases s <;> simp at hm
  all_goals
    (repeat' split at h) <;> cases h <;>
    first
      | exact ⟨_, rfl, fun _ s d hm => by simp at hm⟩
      | exact ⟨[], (List.append_nil _).symm, fun _ s d hm => by simp at hm⟩

theorem list_split {α : Type} {l1 l2 pre post : List α} {x : α} (h : l1 ++ l2 = pre ++ x :: post) :
    (∃ q, l1 = pre ++ x :: q) ∨ ∃ p, pre = l1 ++ p ∧ l2 = p ++ x :: post := by
  rcases List.append_eq_append_iff.mp h with ⟨a, e1, e2⟩ | ⟨a, e1, e2⟩
  · exact .inr ⟨a, e1, e2⟩
  · cases a with
    | nil => exact .inr ⟨[], by simpa using e1.symm, by simpa using e2.symm⟩
    | cons y a =>
      simp only [List.cons_append, List.cons.injEq] at e2
      exact .inl ⟨a, by rw [e1, e2.1]⟩

/-- Whatever is under way or has arrived was handed to the network before; `R` says what may have happened
to it on the way. -/
structure CInv (R : SocketAddr × Datagram → SocketAddr × Datagram → Prop) (net : Nat → Net) (c : Cluster) :
    Prop where
  runs : ∀ k n, c.nodes[k]? = some n →
    (∃ ls, Node.init.run (net k) ls = some n) ∧ processLog k c.log = n.log
  others : ∀ k, c.nodes[k]? = none → processLog k c.log = []
  air : ∀ x ∈ c.air, ∃ y ∈ emittedIn c.log, R x y
  arrived : ∀ pre post k s d, c.log = pre ++ .at k s (.arrive d) :: post →
    ∃ dest y a role rest, y ∈ emittedIn pre ∧ R (dest, d) y ∧ (net k).reaches a dest = true ∧
      history s (processLog k pre) = .bind role a :: rest

theorem node_snoc {N : Net} {ls : List NLabel} {n n' : Node} {x : NLabel} (h : Node.init.run N ls = some n)
    (hx : n.step N x = some n') : Node.init.run N (ls ++ [x]) = some n' := by
  rw [Node.run_append, h]
  simp [Node.run, hx]

theorem life_bind {a : SocketAddr} {h : List NEv} (hl : Life a h) : ∃ role rest, h = .bind role a :: rest := by
  rcases hl with ⟨t, e, -⟩ | ⟨t, e, -⟩ | ⟨t, b, ls, s, -, -, e⟩
  · exact ⟨_, _, e⟩
  · exact ⟨_, _, e⟩
  · exact ⟨_, _, e⟩

theorem cinv_set {R : SocketAddr × Datagram → SocketAddr × Datagram → Prop} {net : Nat → Net} {c : Cluster}
    (h : CInv R net c) {k : Nat} {n n' : Node} (hk : c.nodes[k]? = some n) {x : NLabel}
    (hs : n.step (net k) x = some n') {es : List (Nat × NEv)} (he : n'.log = n.log ++ es) :
    (∀ j m, (c.nodes.set k n')[j]? = some m → (∃ ls, Node.init.run (net j) ls = some m) ∧
      processLog j (c.log ++ es.map (fun e => .at k e.1 e.2)) = m.log) ∧
    (∀ j, (c.nodes.set k n')[j]? = none →
      processLog j (c.log ++ es.map (fun e => .at k e.1 e.2)) = []) := by
  obtain ⟨hlt, -⟩ := List.getElem?_eq_some_iff.mp hk
  constructor
  · intro j m hj
    rw [List.getElem?_set] at hj
    split at hj
    · next hkj =>
      subst hkj
      cases hj
      obtain ⟨⟨ls, h1⟩, h2⟩ := h.runs k n hk
      exact ⟨⟨_, node_snoc h1 hs⟩, by rw [processLog_append, h2, processLog_same, he]⟩
    · next hkj =>
      obtain ⟨h1, h2⟩ := h.runs j m hj
      exact ⟨h1, by rw [processLog_append, h2, processLog_other hkj, List.append_nil]⟩
  · intro j hj
    rw [List.getElem?_set] at hj
    split at hj
    · cases hj
    · next hkj => rw [processLog_append, h.others j hj, processLog_other hkj]; rfl

theorem mem_emitted_append {x : SocketAddr × Datagram} {l1 : List CEv} (l2 : List CEv)
    (h : x ∈ emittedIn l1) : x ∈ emittedIn (l1 ++ l2) := by
  rw [emittedIn_append]; exact List.mem_append_left _ h

theorem cinv_step (R : SocketAddr × Datagram → SocketAddr × Datagram → Prop) (hrefl : ∀ x, R x x)
    (net : Nat → Net) (c c' : Cluster) (x : CLabel)
    (hrw : (∃ i dest source, x = .rewrite i dest source) → ∀ y d z, ∀ dest source,
      R (y, d) z → R (dest, ⟨d.bytes, source⟩) z)
    (h : CInv R net c) (hs : c.step net x = some c') : CInv R net c' := by
  cases x <;> simp only [Cluster.step] at hs
  case boot =>
    cases hs
    refine ⟨?_, ?_, h.air, h.arrived⟩
    · intro k n hk
      rw [List.getElem?_append] at hk
      split at hk
      · exact h.runs k n hk
      · next hlt =>
        have h0 := h.others k (by simpa using Nat.not_lt.mp hlt)
        have hm := List.mem_of_getElem? hk
        simp only [List.mem_singleton] at hm
        subst hm
        exact ⟨⟨[], rfl⟩, by simpa [Node.init] using h0⟩
    · intro k hk
      refine h.others k ?_
      simp only [List.getElem?_eq_none_iff, List.length_append] at hk ⊢
      omega
  case foreign dest d =>
    cases hs
    have hp : ∀ k, processLog k (c.log ++ [.foreign dest d]) = processLog k c.log := by
      intro k; rw [processLog_append]; simp [processLog]
    refine ⟨?_, ?_, ?_, ?_⟩
    · intro k n hk; rw [hp]; exact h.runs k n hk
    · intro k hk; rw [hp]; exact h.others k hk
    · intro y hy
      rcases List.mem_append.mp hy with hy | hy
      · obtain ⟨z, h1, h2⟩ := h.air y hy
        exact ⟨z, mem_emitted_append _ h1, h2⟩
      · simp only [List.mem_singleton] at hy
        subst hy
        exact ⟨(dest, d), by simp [emittedIn_append, emittedIn], hrefl _⟩
    · intro pre post k s d' he
      rcases list_split he with ⟨q, h1⟩ | ⟨p, h1, h2⟩
      · exact h.arrived _ _ k s d' h1
      · cases p with
        | nil => simp at h2
        | cons a p => simp at h2
  case lose i =>
    cases hs
    exact ⟨h.runs, h.others, fun y hy => h.air y (List.mem_of_mem_eraseIdx hy), h.arrived⟩
  case duplicate i =>
    split at hs <;> cases hs
    next y hy =>
    refine ⟨h.runs, h.others, ?_, h.arrived⟩
    intro z hz
    rcases List.mem_append.mp hz with hz | hz
    · exact h.air z hz
    · simp only [List.mem_singleton] at hz
      exact h.air z (hz ▸ List.mem_of_getElem? hy)
  case rewrite i dest source =>
    split at hs <;> cases hs
    next d0 d hd =>
    refine ⟨h.runs, h.others, ?_, h.arrived⟩
    intro z hz
    rcases List.mem_or_eq_of_mem_set hz with hz | hz
    · exact h.air z hz
    · obtain ⟨y, h1, h2⟩ := h.air _ (List.mem_of_getElem? hd)
      exact ⟨y, h1, hz ▸ hrw ⟨i, dest, source, rfl⟩ _ _ _ _ _ h2⟩
  case proc k x =>
    split at hs
    case h_1 => cases hs
    next n hn =>
    split at hs
    case h_1 => cases hs
    next hnarr =>
    split at hs
    case h_1 => cases hs
    next n' hn' =>
    cases hs
    obtain ⟨es, he, hes⟩ := node_log _ _ _ _ hn'
    have hes := hes (fun dest d e => hnarr dest d e)
    have hdrop : n'.log.drop n.log.length = es := by rw [he]; simp
    rw [hdrop]
    obtain ⟨g1, g2⟩ := cinv_set h hn hn' he
    refine ⟨g1, g2, ?_, ?_⟩
    · intro y hy
      rcases List.mem_append.mp hy with hy | hy
      · obtain ⟨z, h1, h2⟩ := h.air y hy
        exact ⟨z, mem_emitted_append _ h1, h2⟩
      · exact ⟨y, by rw [emittedIn_append, emittedIn_map]; exact List.mem_append_right _ hy, hrefl _⟩
    · intro pre post j s d hlog
      rcases list_split hlog with ⟨q, h1⟩ | ⟨p, h1, h2⟩
      · exact h.arrived _ _ j s d h1
      · have : CEv.at j s (.arrive d) ∈ es.map (fun e => CEv.at k e.1 e.2) := by rw [h2]; simp
        obtain ⟨e, hm, heq⟩ := List.mem_map.mp this
        simp only [CEv.at.injEq] at heq
        exact absurd (by rw [← heq.2.1, ← heq.2.2]; exact hm) (hes s d)
  case deliver i k =>
    split at hs
    case h_2 => cases hs
    next dest d n hd hn =>
    cases hs
    have hstep : n.step (net k) (.arrive dest d) = some (n.arrive (net k) dest d) := rfl
    have he : (n.arrive (net k) dest d).log =
        n.log ++ (n.sockets.filter (fun x => (net k).reaches x.2 dest)).map (fun x => (x.1, .arrive d)) := rfl
    have hdrop : (n.arrive (net k) dest d).log.drop n.log.length =
        (n.sockets.filter (fun x => (net k).reaches x.2 dest)).map (fun x => (x.1, .arrive d)) := by
      rw [he]; simp
    rw [hdrop]
    obtain ⟨g1, g2⟩ := cinv_set h hn hstep he
    refine ⟨g1, g2, ?_, ?_⟩
    · intro y hy
      obtain ⟨z, h1, h2⟩ := h.air y (List.mem_of_mem_eraseIdx hy)
      exact ⟨z, mem_emitted_append _ h1, h2⟩
    · intro pre post j s d' hlog
      rcases list_split hlog with ⟨q, h1⟩ | ⟨p, h1, h2⟩
      · exact h.arrived _ _ j s d' h1
      · obtain ⟨⟨ls, hrun⟩, hpl⟩ := h.runs k n hn
        have hinv := node_run (net k) ls _ _ (Node.init_inv _) hrun
        -- all new entries are arrivals of `d`, and there is at most one
        have hent : ∀ e ∈ ((n.sockets.filter (fun x => (net k).reaches x.2 dest)).map
            (fun x => (x.1, NEv.arrive d))).map (fun e => CEv.at k e.1 e.2),
            ∃ s a, e = .at k s (.arrive d) ∧ (s, a) ∈ n.sockets ∧ (net k).reaches a dest = true := by
          intro e hm
          simp only [List.map_map, List.mem_map, List.mem_filter, Function.comp] at hm
          obtain ⟨y, ⟨h1, h2⟩, rfl⟩ := hm
          exact ⟨y.1, y.2, rfl, h1, h2⟩
        obtain ⟨s', a, heq, hsock, hreach⟩ := hent (.at j s (.arrive d')) (by rw [h2]; simp)
        simp only [CEv.at.injEq, NEv.arrive.injEq] at heq
        obtain ⟨rfl, rfl, rfl⟩ := heq
        obtain ⟨y, hy1, hy2⟩ := h.air _ (List.mem_of_getElem? hd)
        -- no entry of this step before it is for the same socket
        have hp : history s (processLog j p) = [] := by
          have hpre : processLog j p ++ (s, NEv.arrive d') :: processLog j post =
              (n.sockets.filter (fun x => (net j).reaches x.2 dest)).map (fun x => (x.1, NEv.arrive d')) := by
            have := congrArg (processLog j) h2
            rw [processLog_same, processLog_append] at this
            rw [this]; simp [processLog]
          have hnd : ((processLog j p).map Prod.fst ++ s :: (processLog j post).map Prod.fst).Nodup := by
            have h3 : ((n.sockets.filter (fun x => (net j).reaches x.2 dest)).map Prod.fst).Nodup := by
              have h4 : (n.sockets.map Prod.fst).Nodup := by
                have := hinv.nodup
                rw [Node.sockets_eq, List.map_map]
                exact this
              exact (List.filter_sublist.map _).nodup h4
            have h5 := congrArg (List.map Prod.fst) hpre
            simp only [List.map_append, List.map_cons, List.map_map] at h5
            rw [h5]
            exact h3
          have hns : s ∉ (processLog j p).map Prod.fst := by
            intro hm
            exact (List.nodup_append.mp hnd).2.2 s hm s List.mem_cons_self rfl
          simp only [history, List.map_eq_nil_iff, List.filter_eq_nil_iff, beq_iff_eq]
          intro x hx e
          exact hns (e ▸ List.mem_map_of_mem hx)
        have hl : ∃ role rest, history s n.log = .bind role a :: rest := by
          rw [Node.sockets_eq, List.mem_map] at hsock
          obtain ⟨⟨s2, o⟩, ho, heq⟩ := hsock
          simp only [Prod.mk.injEq] at heq
          obtain ⟨rfl, rfl⟩ := heq
          exact life_bind (hinv.fits _ ho).life
        obtain ⟨role, rest, hl⟩ := hl
        refine ⟨dest, y, a, role, rest, ?_, hy2, hreach, ?_⟩
        · rw [h1]; exact mem_emitted_append _ hy1
        · rw [h1, processLog_append, history_append, hp, List.append_nil, hpl, hl]

theorem cinv_run (R : SocketAddr × Datagram → SocketAddr × Datagram → Prop) (hrefl : ∀ x, R x x)
    (net : Nat → Net) (ls : List CLabel) (c c' : Cluster)
    (hrw : (∃ i dest source, CLabel.rewrite i dest source ∈ ls) → ∀ y d z, ∀ dest source,
      R (y, d) z → R (dest, ⟨d.bytes, source⟩) z)
    (h : CInv R net c) (hs : c.run net ls = some c') : CInv R net c' := by
  induction ls generalizing c with
  | nil => simp only [Cluster.run, Option.some.injEq] at hs; exact hs ▸ h
  | cons x ls ih =>
    simp only [Cluster.run] at hs
    split at hs
    · next m hm =>
      refine ih m (fun ⟨i, a, b, hx⟩ => hrw ⟨i, a, b, List.mem_cons_of_mem _ hx⟩)
        (cinv_step R hrefl net c m x ?_ h hm) hs
      rintro ⟨i, a, b, rfl⟩
      exact hrw ⟨i, a, b, List.mem_cons_self⟩
    · cases hs

theorem cinv_init (R : SocketAddr × Datagram → SocketAddr × Datagram → Prop) (net : Nat → Net) :
    CInv R net Cluster.init :=
  ⟨by simp [Cluster.init], by simp [Cluster.init, processLog], by simp [Cluster.init],
    by simp [Cluster.init]⟩

theorem processLog_split {k s : Nat} {e : NEv} {pre post : List CEv} :
    processLog k (pre ++ .at k s e :: post) = processLog k pre ++ (s, e) :: processLog k post := by
  rw [processLog_append]; simp [processLog]

theorem mem_processLog {k s : Nat} {e : NEv} {l : List CEv} (h : (s, e) ∈ processLog k l) : .at k s e ∈ l := by
  induction l with
  | nil => cases h
  | cons x l ih =>
    cases x with
    | «at» j s' e' =>
      simp only [processLog] at h
      split at h
      · next hj =>
        subst hj
        rcases List.mem_cons.mp h with h | h
        · cases h; exact List.mem_cons_self
        · exact List.mem_cons_of_mem _ (ih h)
      · exact List.mem_cons_of_mem _ (ih h)
    | foreign dest d => exact List.mem_cons_of_mem _ (ih h)

theorem mem_history {s : Nat} {e : NEv} {l : List (Nat × NEv)} (h : e ∈ history s l) : (s, e) ∈ l := by
  simp only [history, List.mem_map, List.mem_filter, beq_iff_eq] at h
  obtain ⟨x, ⟨h1, h2⟩, h3⟩ := h
  rw [← h2, ← h3]
  exact h1

theorem mem_arrivedIn {d : Datagram} {l : List NEv} (h : d ∈ arrivedIn l) : .arrive d ∈ l := by
  induction l with
  | nil => cases h
  | cons x l ih =>
    cases x
    case arrive d' =>
      rcases List.mem_cons.mp h with h | h
      · cases h; exact List.mem_cons_self
      · exact List.mem_cons_of_mem _ (ih h)
    all_goals exact List.mem_cons_of_mem _ (ih h)

theorem nodes_some {R : SocketAddr × Datagram → SocketAddr × Datagram → Prop} {net : Nat → Net} {c : Cluster}
    (h : CInv R net c) {k s : Nat} {e : NEv} {pre post : List CEv} (hl : c.log = pre ++ .at k s e :: post) :
    ∃ n ls, c.nodes[k]? = some n ∧ Node.init.run (net k) ls = some n ∧
      n.log = processLog k pre ++ (s, e) :: processLog k post := by
  have hp := @processLog_split k s e pre post
  rw [← hl] at hp
  cases hn : c.nodes[k]? with
  | none => rw [h.others k hn] at hp; simp at hp
  | some n =>
    obtain ⟨⟨ls, h1⟩, h2⟩ := h.runs k n hn
    exact ⟨n, ls, rfl, h1, by rw [← h2, hp]⟩

theorem called_because {R : SocketAddr × Datagram → SocketAddr × Datagram → Prop} {net : Nat → Net}
    {c : Cluster} (h : CInv R net c) (k s r : Nat) (p : Packet) (a : Address) (pre post : List CEv)
    (hl : c.log = pre ++ .at k s (.net (.call r p a)) :: post) :
    ∃ b d first between dest y address,
      pre = first ++ .at k s (.arrive d) :: between ∧ received b d = (p, a) ∧
      .at k s (.start b) ∈ pre ∧
      y ∈ emittedIn first ∧ R (dest, d) y ∧ (net k).reaches address dest = true ∧
      .at k s (.bind .receiver address) ∈ first := by
  obtain ⟨n, ls, -, hrun, hlog⟩ := nodes_some h hl
  obtain ⟨address, before, after, b, d, h1, -, -, -, h5, h6⟩ := C66_call (net k) ls n hrun s r p a _ _ hlog
  have hd : .arrive d ∈ history s (processLog k pre) := by
    rw [h1]
    rcases List.mem_append.mp (mem_arrivedIn h5) with hm | hm
    · simp [hm]
    · simp [hm]
  have hst : .start b ∈ history s (processLog k pre) := by rw [h1]; simp
  obtain ⟨first, between, e⟩ := List.append_of_mem (mem_processLog (mem_history hd))
  obtain ⟨dest, y, ad, role, rest, g1, g2, g3, g4⟩ := h.arrived first _ k s d (by rw [hl, e]; simp; rfl)
  have hbind : NEv.bind role ad = .bind .receiver address := by
    have h7 : history s (processLog k pre) = .bind role ad :: rest ++ history s (processLog k
        (.at k s (.arrive d) :: between)) := by
      rw [e, processLog_append, history_append, g4]
    rw [h1] at h7
    simp only [List.cons_append, List.cons.injEq] at h7
    exact h7.1.symm
  refine ⟨b, d, first, between, dest, y, ad, e, h6, mem_processLog (mem_history hst), g1, g2, g3, ?_⟩
  refine mem_processLog (mem_history ?_)
  rw [g4]
  cases hbind
  exact List.mem_cons_self

/-! ## The theorems -/

/-- C78. Nothing comes from nowhere.  In any history of any number of processes and a network that loses,
duplicates, delays, reorders and readdresses: when a receiver is called with a packet, then the same bytes
(cut to the buffer size given to `start`) were handed to the network earlier, by `send` in one of the
processes or by a foreign host; afterwards, and before the call, they arrived at the very socket whose
thread makes the call. -/
theorem C78 (net : Nat → Net) (ls : List CLabel) (c : Cluster) (h : Cluster.init.run net ls = some c)
    (k s r : Nat) (p : Packet) (a : Address) (pre post : List CEv)
    (hl : c.log = pre ++ .at k s (.net (.call r p a)) :: post) :
    ∃ b d first between dest d0,
      pre = first ++ .at k s (.arrive d) :: between ∧ .at k s (.start b) ∈ pre ∧
      p.bytes = d.bytes.take b ∧ a.sock = d.source ∧
      (dest, d0) ∈ emittedIn first ∧ d0.bytes = d.bytes := by
  have hi := cinv_run (fun x y => x.2.bytes = y.2.bytes) (fun _ => rfl) net ls _ c
    (fun _ y d z dest source h => h) (cinv_init _ net) h
  obtain ⟨b, d, first, between, dest, y, address, h1, h2, h3, h4, h5, -⟩ :=
    called_because hi k s r p a pre post hl
  simp only [received, Prod.mk.injEq] at h2
  exact ⟨b, d, first, between, y.1, y.2, h1, h3, by rw [← h2.1], by rw [← h2.2], h4, h5.symm⟩

/-- C78. Without NAT boxes on the way: the address a receiver is called with is the source address of the
datagram as it was handed to the network, and it was handed to the network for the address to which the
receiving socket is bound. -/
theorem C78_flat (net : Nat → Net) (ls : List CLabel) (c : Cluster) (h : Cluster.init.run net ls = some c)
    (hflat : ∀ i dest source, .rewrite i dest source ∉ ls)
    (k s r : Nat) (p : Packet) (a : Address) (pre post : List CEv)
    (hl : c.log = pre ++ .at k s (.net (.call r p a)) :: post) :
    ∃ b d first between dest address,
      pre = first ++ .at k s (.arrive d) :: between ∧ .at k s (.start b) ∈ pre ∧
      received b d = (p, a) ∧ (dest, d) ∈ emittedIn first ∧
      .at k s (.bind .receiver address) ∈ first ∧ (net k).reaches address dest = true := by
  have hi := cinv_run (fun x y => x = y) (fun _ => rfl) net ls _ c
    (fun ⟨i, x, y, hm⟩ => absurd hm (hflat i x y)) (cinv_init _ net) h
  obtain ⟨b, d, first, between, dest, y, address, h1, h2, h3, h4, h5, h6, h7⟩ :=
    called_because hi k s r p a pre post hl
  exact ⟨b, d, first, between, dest, address, h1, h3, h2, by rw [h5]; exact h4, h7, h6⟩

/-- C78. And what a process hands to the network has as its source the address of the sending socket, which
is open at that moment. -/
theorem C78_source (net : Nat → Net) (ls : List CLabel) (c : Cluster) (h : Cluster.init.run net ls = some c)
    (k s : Nat) (dest : SocketAddr) (d : Datagram) (pre post : List CEv)
    (hl : c.log = pre ++ .at k s (.send dest d) :: post) :
    .at k s (.bind .sender d.source) ∈ pre ∧ .at k s .close ∉ pre := by
  have hi := cinv_run (fun x y => x.2.bytes = y.2.bytes) (fun _ => rfl) net ls _ c
    (fun _ y d z dest source h => h) (cinv_init _ net) h
  obtain ⟨n, lk, -, hrun, hlog⟩ := nodes_some hi hl
  obtain ⟨rest, h1, h2⟩ := C67_source (net k) lk n hrun s dest d _ _ hlog
  refine ⟨mem_processLog (mem_history (by rw [h1]; exact List.mem_cons_self)), fun hm => h2 ?_⟩
  obtain ⟨q1, q2, rfl⟩ := List.append_of_mem hm
  rw [processLog_split, history_append]
  simp [history]

/-! ## Counting -/

theorem one_reached {N : Net} {ls : List NLabel} {n : Node} (h : Node.init.run N ls = some n)
    (dest : SocketAddr) : (n.sockets.filter (fun x => N.reaches x.2 dest)).length ≤ 1 := by
  have hinv := node_run N ls _ _ (Node.init_inv _) h
  have hnd : (n.sockets.map Prod.fst).Nodup := by
    have := hinv.nodup
    rw [Node.sockets_eq, List.map_map]
    exact this
  have hnd' : ((n.sockets.filter (fun x => N.reaches x.2 dest)).map Prod.fst).Nodup :=
    (List.filter_sublist.map _).nodup hnd
  have hall : ∀ x ∈ n.sockets.filter (fun x => N.reaches x.2 dest),
      ∀ y ∈ n.sockets.filter (fun x => N.reaches x.2 dest), x.1 = y.1 := by
    intro x hx y hy
    rw [List.mem_filter] at hx hy
    exact (C66_one_socket N ls n h dest x.1 y.1 x.2 y.2 hx.1 hy.1 hx.2 hy.2).1
  match hl : n.sockets.filter (fun x => N.reaches x.2 dest) with
  | [] => rw [hl]; simp
  | [x] => rw [hl]; simp
  | x :: y :: l =>
    rw [hl] at hnd' hall
    have := hall x List.mem_cons_self y (List.mem_cons_of_mem _ List.mem_cons_self)
    simp [this] at hnd'

/-- How many of these datagrams consist of the bytes `w`. -/
def copies (w : Bytes) (l : List Datagram) : Nat := l.countP (fun d => d.bytes = w)

theorem copies_append (w : Bytes) (a b : List Datagram) : copies w (a ++ b) = copies w a + copies w b := by
  simp [copies]

theorem copies_eraseIdx (w : Bytes) {l : List (SocketAddr × Datagram)} {i : Nat} {x : SocketAddr × Datagram}
    (h : l[i]? = some x) : copies w ((l.eraseIdx i).map Prod.snd) + (if x.2.bytes = w then 1 else 0) =
      copies w (l.map Prod.snd) := by
  obtain ⟨p, q, e, -, hera, -⟩ := split_at h
  rw [hera, e]
  simp only [copies, List.map_append, List.map_cons, List.countP_append, List.countP_cons, decide_eq_true_eq]
  omega

theorem arrivedAnywhere_none (k : Nat) (es : List (Nat × NEv)) (h : ∀ s d, (s, NEv.arrive d) ∉ es) :
    arrivedAnywhere (es.map fun e => .at k e.1 e.2) = [] := by
  induction es with
  | nil => rfl
  | cons e es ih =>
    obtain ⟨s, e⟩ := e
    have h1 := ih (fun s d hm => h s d (List.mem_cons_of_mem _ hm))
    cases e <;> simp [arrivedAnywhere, h1]
    exact h s _ List.mem_cons_self

theorem copies_step (w : Bytes) (net : Nat → Net) (c c' : Cluster) (x : CLabel)
    (hdup : ∀ i, x ≠ .duplicate i) (hi : CInv (fun x y => x.2.bytes = y.2.bytes) net c)
    (h : copies w (arrivedAnywhere c.log) + copies w (c.air.map Prod.snd) ≤
      copies w ((emittedIn c.log).map Prod.snd))
    (hs : c.step net x = some c') :
    copies w (arrivedAnywhere c'.log) + copies w (c'.air.map Prod.snd) ≤
      copies w ((emittedIn c'.log).map Prod.snd) := by
  cases x <;> simp only [Cluster.step] at hs
  case boot => cases hs; exact h
  case foreign dest d =>
    cases hs
    simp only [arrivedAnywhere_append, emittedIn_append, List.map_append, copies_append, arrivedAnywhere,
      emittedIn, List.map_cons, List.map_nil]
    have : copies w [] = 0 := rfl
    omega
  case lose i =>
    cases hs
    have : copies w ((c.air.eraseIdx i).map Prod.snd) ≤ copies w (c.air.map Prod.snd) :=
      ((List.eraseIdx_sublist c.air i).map Prod.snd).countP_le
    simp only
    omega
  case duplicate i => exact absurd rfl (hdup i)
  case rewrite i dest source =>
    split at hs <;> cases hs
    next d0 d hd =>
    obtain ⟨p, q, e, hset, -⟩ := split_at hd
    simp only
    rw [hset]
    rw [e] at h
    simpa [copies, List.countP_append, List.countP_cons] using h
  case proc k x =>
    split at hs
    case h_1 => cases hs
    next n hn =>
    split at hs
    case h_1 => cases hs
    next hnarr =>
    split at hs
    case h_1 => cases hs
    next n' hn' =>
    cases hs
    obtain ⟨es, he, hes⟩ := node_log _ _ _ _ hn'
    have hes := hes (fun dest d e => hnarr dest d e)
    have hdrop : n'.log.drop n.log.length = es := by rw [he]; simp
    simp only [hdrop, arrivedAnywhere_append, emittedIn_append, emittedIn_map, arrivedAnywhere_none k es hes,
      List.append_nil, List.map_append, copies_append]
    omega
  case deliver i k =>
    split at hs
    case h_2 => cases hs
    next dest d n hd hn =>
    cases hs
    obtain ⟨⟨ls, hrun⟩, -⟩ := hi.runs k n hn
    have hdrop : (n.arrive (net k) dest d).log.drop n.log.length =
        (n.sockets.filter (fun x => (net k).reaches x.2 dest)).map (fun x => (x.1, .arrive d)) := by
      show (n.log ++ _).drop _ = _
      simp
    have hone := one_reached hrun dest
    have hair := copies_eraseIdx w hd
    simp only [hdrop, arrivedAnywhere_append, emittedIn_append, emittedIn_map, List.map_append, copies_append]
    generalize n.sockets.filter (fun x => (net k).reaches x.2 dest) = l at hone
    match l, hone with
    | [], _ =>
      simp only [List.map_nil, arrivedAnywhere, outgoing]
      have : copies w [] = 0 := rfl
      omega
    | [y], _ =>
      simp only [List.map_cons, List.map_nil, arrivedAnywhere, outgoing]
      have h0 : copies w [] = 0 := rfl
      have h1 : copies w [d] = if d.bytes = w then 1 else 0 := by simp [copies, List.countP_cons]
      simp only at hair
      omega

/-- C78. If the network duplicates nothing, then what arrives anywhere was sent as often: for any bytes, the
number of arrivals at all sockets of all processes together is at most the number of times these bytes were
handed to the network.  (And each arrival makes each receiver of that socket be called at most once: C66.) -/
theorem C78_at_most (net : Nat → Net) (ls : List CLabel) (c : Cluster)
    (h : Cluster.init.run net ls = some c) (hdup : ∀ i, .duplicate i ∉ ls) (w : Bytes) :
    copies w (arrivedAnywhere c.log) ≤ copies w ((emittedIn c.log).map Prod.snd) := by
  have key : ∀ (ls : List CLabel) (c c' : Cluster), (∀ i, .duplicate i ∉ ls) →
      CInv (fun x y => x.2.bytes = y.2.bytes) net c →
      copies w (arrivedAnywhere c.log) + copies w (c.air.map Prod.snd) ≤
        copies w ((emittedIn c.log).map Prod.snd) → c.run net ls = some c' →
      copies w (arrivedAnywhere c'.log) + copies w (c'.air.map Prod.snd) ≤
        copies w ((emittedIn c'.log).map Prod.snd) := by
    intro ls
    induction ls with
    | nil => intro c c' _ _ h hs; simp only [Cluster.run, Option.some.injEq] at hs; exact hs ▸ h
    | cons x ls ih =>
      intro c c' hd hi h hs
      simp only [Cluster.run] at hs
      split at hs
      · next m hm =>
        exact ih m c' (fun i hx => hd i (List.mem_cons_of_mem _ hx))
          (cinv_step (fun x y => x.2.bytes = y.2.bytes) (fun _ => rfl) net c m x
            (fun _ y d z dest source h => h) hi hm)
          (copies_step w net c m x (fun i e => hd i (e ▸ List.mem_cons_self)) hi h hm) hs
      · cases hs
  have := key ls _ c hdup (cinv_init _ net) (Nat.le_refl _) h
  omega

/-! ## Getting there -/

theorem serve_dispatch (l : Listener) (todo : List Nat) (s : NetState) (p : Packet) (a : Address)
    (hp : s.phase = .dispatch 0 p a todo [] false) :
    ∃ ls s', (∀ x ∈ ls, internal x = true) ∧ l.run s ls = some s' ∧ s'.phase = .polling ∧
      s'.ready = s.ready ∧ s'.queue = s.queue := by
  induction todo generalizing s with
  | nil =>
    refine ⟨[.join], { s with phase := .polling }, by simp [internal], ?_, rfl, rfl, rfl⟩
    simp [Listener.run, Listener.step, hp, afterEvent]
  | cons r todo ih =>
    obtain ⟨ls, s', h1, h2, h3, h4, h5⟩ := ih
      { s with phase := .dispatch 0 p a todo [] false, trace := s.trace ++ [.call r p a] ++ [.ret r] } rfl
    refine ⟨.start r :: .finish r :: ls, s', ?_, ?_, h3, h4, h5⟩
    · intro x hx
      simp only [List.mem_cons] at hx
      rcases hx with rfl | rfl | hx
      · rfl
      · rfl
      · exact h1 x hx
    · simpa [Listener.run, Listener.step, hp] using h2

theorem serve (l : Listener) (s : NetState) (d : Datagram) (hp : s.phase = .polling) (hr : s.ready = true)
    (hq : s.queue = [d]) : ∃ ls s', (∀ x ∈ ls, internal x = true) ∧ l.run s ls = some s' ∧
      Waiting s' ∧ s'.queue = [] := by
  have h1 : l.step s .pollEvent = some { s with ready := false, phase := .handling 1 } := by
    simp [Listener.step, hp, hr]
  cases h2 : l.step { s with ready := false, phase := .handling 1 } .recv with
  | none => simp [Listener.step, hq] at h2
  | some m =>
    have h3 : ∃ p a, m.phase = .dispatch 0 p a (List.range l.receivers.length) [] false ∧ m.ready = false ∧
        m.queue = [] := by
      simp only [Listener.step, hq, Option.some.injEq] at h2
      subst h2
      exact ⟨_, _, rfl, rfl, rfl⟩
    obtain ⟨p, a, g1, g2, g3⟩ := h3
    obtain ⟨ls, s', k1, k2, k3, k4, k5⟩ := serve_dispatch l _ m p a g1
    refine ⟨.pollEvent :: .recv :: ls, s', ?_, ?_, ⟨k3, by rw [k4, g2]⟩, by rw [k5, g3]⟩
    · intro x hx
      simp only [List.mem_cons] at hx
      rcases hx with rfl | rfl | hx
      · rfl
      · rfl
      · exact k1 x hx
    · simp only [Listener.run, h1, h2]
      exact k2

theorem node_thread_run (N : Net) (ti : Nat) (ls : List Label) (hls : ∀ x ∈ ls, internal x = true) (n : Node)
    (t : Thread) (ht : n.threads[ti]? = some t) (s' : NetState) (h : t.listener.run t.state ls = some s') :
    ∃ n', n.run N (ls.map (.thread ti)) = some n' ∧ n'.threads[ti]? = some { t with state := s' } := by
  induction ls generalizing n t with
  | nil =>
    simp only [Listener.run, Option.some.injEq] at h
    exact ⟨n, rfl, by rw [ht, ← h]⟩
  | cons x ls ih =>
    simp only [Listener.run] at h
    split at h
    case h_2 => cases h
    next m hm =>
    obtain ⟨hlt, -⟩ := List.getElem?_eq_some_iff.mp ht
    have hx := hls x List.mem_cons_self
    have hstep : ∃ n1, n.step N (.thread ti x) = some n1 ∧ n1.threads[ti]? = some { t with state := m } := by
      cases x <;> first
        | (simp [internal] at hx; done)
        | (simp only [Node.step, ht, hm]
           exact ⟨_, rfl, by simp [hlt]⟩)
    obtain ⟨n1, h1, h2⟩ := hstep
    obtain ⟨n', h3, h4⟩ := ih (fun y hy => hls y (List.mem_cons_of_mem _ hy)) n1 { t with state := m } h2 h
    exact ⟨n', by simp only [List.map_cons, Node.run, h1]; exact h3, h4⟩

theorem cluster_proc_run (net : Nat → Net) (k : Nat) (xs : List NLabel) (hxs : ∀ x ∈ xs, ∀ dest d, x ≠ .arrive dest d)
    (c : Cluster) (n n' : Node) (hk : c.nodes[k]? = some n) (h : n.run (net k) xs = some n') :
    ∃ c', c.run net (xs.map (.proc k)) = some c' ∧ c'.nodes[k]? = some n' := by
  induction xs generalizing c n with
  | nil => simp only [Node.run, Option.some.injEq] at h; exact ⟨c, rfl, h ▸ hk⟩
  | cons x xs ih =>
    simp only [Node.run] at h
    split at h
    case h_2 => cases h
    next m hm =>
    obtain ⟨hlt, -⟩ := List.getElem?_eq_some_iff.mp hk
    have hx := hxs x List.mem_cons_self
    have hstep : ∃ c1, c.step net (.proc k x) = some c1 ∧ c1.nodes[k]? = some m := by
      cases x <;> first
        | (exact absurd rfl (hx _ _))
        | (simp only [Cluster.step, hk, hm]
           exact ⟨_, rfl, by simp [hlt]⟩)
    obtain ⟨c1, h1, h2⟩ := hstep
    obtain ⟨c', h3, h4⟩ := ih (fun y hy => hxs y (List.mem_cons_of_mem _ hy)) c1 m h2 h
    exact ⟨c', by simp only [List.map_cons, Cluster.run, h1]; exact h3, h4⟩

theorem Cluster.run_append (net : Nat → Net) (as bs : List CLabel) (c : Cluster) :
    c.run net (as ++ bs) = (c.run net as).bind (fun m => m.run net bs) := by
  induction as generalizing c with
  | nil => rfl
  | cons a as ih =>
    simp only [List.cons_append, Cluster.run]
    cases c.step net a <;> simp [ih]

theorem arrivedIn_quiet (N : Net) (xs : List NLabel) (hxs : ∀ x ∈ xs, ∀ dest d, x ≠ .arrive dest d)
    (n n' : Node) (h : n.run N xs = some n') (s : Nat) :
    arrivedIn (history s n'.log) = arrivedIn (history s n.log) := by
  induction xs generalizing n with
  | nil => simp only [Node.run, Option.some.injEq] at h; rw [h]
  | cons x xs ih =>
    simp only [Node.run] at h
    split at h
    case h_2 => cases h
    next m hm =>
    rw [ih (fun y hy => hxs y (List.mem_cons_of_mem _ hy)) m h]
    obtain ⟨es, he, hes⟩ := node_log N n m x hm
    have hes := hes (hxs x List.mem_cons_self)
    rw [he, history_append, arrivedIn_append]
    have : arrivedIn (history s es) = [] := by
      match hl : arrivedIn (history s es) with
      | [] => rfl
      | d :: _ =>
        have : d ∈ arrivedIn (history s es) := by rw [hl]; exact List.mem_cons_self
        exact absurd (mem_history (mem_arrivedIn this)) (hes s d)
    rw [this, List.append_nil]

/-- C78. And it gets there: from every reachable state of the system, if a process has a sender and another
one (or the same) has a waiting listening thread whose socket the destination reaches, there is a way on in
which the packet is sent and every receiver of that thread is called with it, cut to the buffer size, and
with the address of the sending socket. -/
theorem C78_delivery (net : Nat → Net) (ls : List CLabel) (c : Cluster)
    (h : Cluster.init.run net ls = some c) (j i k ti : Nat) (nj nk : Node) (x : OpenSender) (t : Thread)
    (hj : c.nodes[j]? = some nj) (hx : nj.senders[i]? = some x)
    (hk : c.nodes[k]? = some nk) (ht : nk.threads[ti]? = some t)
    (hw : Waiting t.state) (hq : t.state.queue = []) (address : Address) (packet : Packet)
    (hr : (net k).reaches t.address address.sock = true) :
    ∃ more c', c.run net (.proc j (.send i address packet) :: more) = some c' ∧
      ∀ r, r < t.listener.receivers.length →
        callsOf r (threadIn (history t.socket (processLog k c'.log))) =
          callsOf r (threadIn (history t.socket (processLog k c.log))) ++
            [(⟨packet.bytes.take t.listener.buffersize⟩, ⟨x.address⟩)] := by
  have hinv : ∀ (ls : List CLabel) (c : Cluster), Cluster.init.run net ls = some c →
      CInv (fun x y => x.2.bytes = y.2.bytes) net c := fun ls c h =>
    cinv_run (fun x y => x.2.bytes = y.2.bytes) (fun _ => rfl) net ls _ c
      (fun _ y d z dest source h => h) (cinv_init _ net) h
  have hi := hinv ls c h
  -- send
  let d : Datagram := ⟨packet.bytes, x.address⟩
  have hsend := (C66_send (net j) nj i x address packet).1 hx
  have hlt : j < c.nodes.length := (List.getElem?_eq_some_iff.mp hj).1
  let nj1 : Node := { nj with log := nj.log ++ [(x.socket, .send address.sock d)] }
  have hstep1 : ∃ c1, c.step net (.proc j (.send i address packet)) = some c1 ∧
      c1.nodes = c.nodes.set j nj1 ∧ c1.air = c.air ++ [(address.sock, d)] := by
    simp only [Cluster.step, hj, hsend, List.drop_left]
    exact ⟨_, rfl, rfl, rfl⟩
  obtain ⟨c1, hc1, hn1, ha1⟩ := hstep1
  have hk1 : ∃ n1, c1.nodes[k]? = some n1 ∧ n1.threads = nk.threads ∧
      arrivedIn (history t.socket n1.log) = arrivedIn (history t.socket nk.log) := by
    rw [hn1, List.getElem?_set]
    split
    · next e =>
      subst e
      rw [hj] at hk
      cases hk
      refine ⟨nj1, rfl, rfl, ?_⟩
      exact arrivedIn_quiet (net j) [.send i address packet] (by simp) nj nj1 (by simp [Node.run, hsend, nj1, d]) _
    · exact ⟨nk, hk, rfl, rfl⟩
  obtain ⟨n1, hk1, ht1, hl1⟩ := hk1
  have h1 : Cluster.init.run net (ls ++ [.proc j (.send i address packet)]) = some c1 := by
    rw [Cluster.run_append, h]; simp [Cluster.run, hc1]
  obtain ⟨⟨lk1, hrun1⟩, hp1⟩ := (hinv _ _ h1).runs k n1 hk1
  -- deliver
  have hair : c1.air[c.air.length]? = some (address.sock, d) := by rw [ha1]; simp
  have hstep2 : ∃ c2, c1.step net (.deliver c.air.length k) = some c2 ∧
      c2.nodes[k]? = some (n1.arrive (net k) address.sock d) := by
    simp only [Cluster.step, hair, hk1]
    have : k < c1.nodes.length := (List.getElem?_eq_some_iff.mp hk1).1
    exact ⟨_, rfl, by simp [this]⟩
  obtain ⟨c2, hc2, hk2⟩ := hstep2
  let t2 : Thread := { t with state := { t.state with queue := [d], ready := true } }
  have ht2 : (n1.arrive (net k) address.sock d).threads[ti]? = some t2 := by
    simp only [Node.arrive, List.getElem?_map, ht1, ht, Option.map_some, hr, if_true, Listener.step,
      Option.getD_some, hq, List.nil_append, t2]
  have hmem : (t.socket, t.address) ∈ n1.sockets := by
    simp only [Node.sockets, List.mem_append, List.mem_map]
    exact .inr ⟨t, by rw [ht1]; exact List.mem_of_getElem? ht, rfl⟩
  obtain ⟨n2, e1, -, e3, -⟩ := C66_arrive (net k) lk1 n1 hrun1 address.sock d t.socket t.address hmem hr
  have e1' : n2 = n1.arrive (net k) address.sock d := by
    have : n1.step (net k) (.arrive address.sock d) = some (n1.arrive (net k) address.sock d) := rfl
    rw [this] at e1
    exact (Option.some.inj e1).symm
  subst e1'
  -- serve
  obtain ⟨lt, s', q1, q2, q3, q4⟩ := serve t.listener t2.state d hw.1 rfl rfl
  obtain ⟨n3, r1, r2⟩ := node_thread_run (net k) ti lt q1 _ t2 ht2 s' q2
  have hquiet : ∀ y ∈ lt.map (NLabel.thread ti), ∀ dest d, y ≠ .arrive dest d := by
    intro y hy dest d' e
    obtain ⟨z, -, rfl⟩ := List.mem_map.mp hy
    cases e
  obtain ⟨c3, w1, w2⟩ := cluster_proc_run net k _ hquiet c2 _ n3 hk2 r1
  have h3 : Cluster.init.run net (ls ++ (.proc j (.send i address packet) :: .deliver c.air.length k ::
      (lt.map (NLabel.thread ti)).map (.proc k))) = some c3 := by
    rw [Cluster.run_append, h]
    simp [Cluster.run, hc1, hc2]
    simpa using w1
  refine ⟨.deliver c.air.length k :: (lt.map (NLabel.thread ti)).map (.proc k), c3, ?_, ?_⟩
  · simp only [Cluster.run, hc1, hc2]
    exact w1
  · intro r hrr
    obtain ⟨⟨lk, g1⟩, g2⟩ := hi.runs k nk hk
    obtain ⟨⟨lk3, g3⟩, g4⟩ := (hinv _ _ h3).runs k n3 w2
    obtain ⟨hd1, a1, -, -, a4⟩ := C66_complete (net k) lk nk g1 t (List.mem_of_getElem? ht) (by rw [hw.1]; rfl)
    obtain ⟨hd3, b1, -, -, b4⟩ := C66_complete (net k) lk3 n3 g3 _ (List.mem_of_getElem? r2)
      (by simp only [q3.1]; rfl)
    have hfin := arrivedIn_quiet (net k) _ hquiet _ n3 r1 t.socket
    rw [e3, arrivedIn_append, hl1] at hfin
    rw [hq, List.append_nil] at a1
    simp only [q4, List.append_nil] at b1
    have hb1 : arrivedIn (history t.socket n3.log) = hd3 := b1
    rw [g2, g4, a4 r hrr, ← a1]
    have := b4 r hrr
    rw [← hb1, hfin] at this
    simp only [t2] at this
    rw [this]
    simp [arrivedIn, received, d]

/-! ## Signatures -/

/-- C78. Signatures hold from end to end.  If nothing that was handed to the network is a forgery under `pk`
(when cut to the buffer size of the listening thread), then whatever a receiver of any process accepts under
`pk`, however often and by whichever way it came: the holder of `pk` has signed a message with that header,
and these payloads are what the receiver reads.  NAT boxes, loss, duplication, reordering and foreign hosts
do not matter. -/
theorem C78_authentic (R : Ring) (pk : Ed25519PublicKey) (types : Bytes → UInt8 → List Kind)
    (Signed : Message → Prop) (hconf : ∀ m, Signed m → m.Conforms types)
    (net : Nat → Net) (ls : List CLabel) (c : Cluster) (h : Cluster.init.run net ls = some c)
    (k s r : Nat) (p : Packet) (address : Address) (hcall : .at k s (.net (.call r p address)) ∈ c.log)
    (hforg : ∀ x ∈ emittedIn c.log, ∀ b, .at k s (.start b) ∈ c.log →
      NotForged R pk Signed (x.2.bytes.take b))
    (hlen : p.bytes.length ≤ usizeMax) (header : Header) (d d' d'' : PacketDeserializer)
    (hpop : p.startDeserialize.popHeader = (.ok header, d)) (a : BinMemberAuthenticationPayload)
    (hauth : d.nextPayload BinMemberAuthenticationPayload = (.ok a, d''))
    (hkey : a.publicKeyBin = pk) (hver : d.verify R = (.ok true, d')) :
    ∃ m, Signed m ∧ header = Header.pyIpv8Header m.mid m.type ∧ a = ⟨pk, m.encryptionKey⟩ ∧
      readAll d' (types m.mid.1 m.type) = .ok (m.payloads, ⟨d'.pntr, d'.pntr.bytes.length⟩) := by
  obtain ⟨pre, post, hl⟩ := List.append_of_mem hcall
  obtain ⟨b, d1, first, between, dest, d0, h1, h2, h3, -, h5, h6⟩ :=
    C78 net ls c h k s r p address pre post hl
  refine C63 R pk types Signed hconf p hlen ?_ header d d' d'' hpop a hauth hkey hver
  rw [h3, ← h6]
  refine hforg (dest, d0) ?_ b ?_
  · rw [hl, h1, emittedIn_append, emittedIn_append]
    exact List.mem_append_left _ (List.mem_append_left _ h5)
  · rw [hl]
    exact List.mem_append_left _ h2

/-! ## A concrete case -/

/-- Two processes behind a NAT box: the first has a sender, the second an instance that listens with one
receiver.  The first sends a signed packet; it is duplicated and readdressed on its way; a foreign host
sends something else; one copy arrives, the other one is lost. -/
def exampleCluster (size : Nat) (p : Packet) : List CLabel :=
  [.boot, .boot,
   .proc 0 (.newSender ⟨.v4 1 1 1 1 0⟩ (.v4 1 1 1 1 1)),
   .proc 1 (.newInstance { Config.default with buffersize := size } (.v4 0 0 0 0 9) (.v4 0 0 0 0 8000)),
   .proc 1 (.setup 0 (.addReceiver ⟨fun _ _ => false, fun _ _ => []⟩)),
   .proc 1 (.startInstance 0),
   .proc 0 (.send 0 ⟨.v4 5 5 5 5 5⟩ p),
   .duplicate 0, .foreign (.v4 0 0 0 0 9) ⟨[1, 2], .v4 6 6 6 6 6⟩,
   .rewrite 0 (.v4 0 0 0 0 9) (.v4 7 7 7 7 7), .deliver 0 1, .lose 0,
   .proc 1 (.thread 0 .pollEvent), .proc 1 (.thread 0 .recv), .proc 1 (.thread 0 (.start 0)),
   .proc 1 (.thread 0 (.finish 0)), .proc 1 (.thread 0 .join)]

/-- The receiver of the second process is called with what the first one sent, and with the address that the
NAT box put there; this is the situation of `C78` and `C78_source`. -/
example : ∃ c, Cluster.init.run (fun _ => plainNet) (exampleCluster 16 ⟨[7, 8]⟩) = some c ∧
    c.log =
      [.at 0 0 (.bind .sender (.v4 1 1 1 1 1)),
       .at 1 0 (.bind .receiver (.v4 0 0 0 0 9)), .at 1 1 (.bind .sender (.v4 0 0 0 0 8000)),
       .at 1 0 (.register ⟨fun _ _ => false, fun _ _ => []⟩), .at 1 0 (.start 16), .at 1 1 .close,
       .at 0 0 (.send (.v4 5 5 5 5 5) ⟨[7, 8], .v4 1 1 1 1 1⟩),
       .foreign (.v4 0 0 0 0 9) ⟨[1, 2], .v4 6 6 6 6 6⟩,
       .at 1 0 (.arrive ⟨[7, 8], .v4 7 7 7 7 7⟩),
       .at 1 0 (.net (.taken ⟨[7, 8]⟩ ⟨.v4 7 7 7 7 7⟩)),
       .at 1 0 (.net (.call 0 ⟨[7, 8]⟩ ⟨.v4 7 7 7 7 7⟩)),
       .at 1 0 (.net (.ret 0))] := by
  refine ⟨_, rfl, ?_⟩
  rfl

/-- The same with a signed packet: the situation of `C78_authentic`. -/
example : ((Cluster.init.run (fun _ => plainNet) (exampleCluster 2048 exampleSigned)).map fun c =>
    c.log.any fun e => match e with
      | .at 1 0 (.net (.call 0 q _)) => q.bytes == exampleSigned.bytes
      | _ => false) = some true := by
  decide +kernel

/-- And at the end the thread waits again with nothing queued, so that `C78_delivery` applies: the sender of
the first process and the listening thread of the second one. -/
example : ∃ c nj nk x t, Cluster.init.run (fun _ => plainNet) (exampleCluster 16 ⟨[7, 8]⟩) = some c ∧
    c.nodes[0]? = some nj ∧ nj.senders[0]? = some x ∧ c.nodes[1]? = some nk ∧ nk.threads[0]? = some t ∧
    Waiting t.state ∧ t.state.queue = [] ∧ plainNet.reaches t.address (.v4 0 0 0 0 9) = true ∧
    t.listener.receivers.length = 1 :=
  ⟨_, _, _, _, _, rfl, rfl, rfl, rfl, rfl, ⟨rfl, rfl⟩, rfl, rfl, rfl⟩

/-! ## Cases for the theorems above -/

/-- The same without duplication and without a NAT box. -/
def flatCluster : List CLabel :=
  [.boot, .boot,
   .proc 0 (.newSender ⟨.v4 1 1 1 1 0⟩ (.v4 1 1 1 1 1)),
   .proc 1 (.newInstance { Config.default with buffersize := 16 } (.v4 0 0 0 0 9) (.v4 0 0 0 0 8000)),
   .proc 1 (.setup 0 (.addReceiver ⟨fun _ _ => false, fun _ _ => []⟩)),
   .proc 1 (.startInstance 0),
   .proc 0 (.send 0 ⟨.v4 0 0 0 0 9⟩ ⟨[7, 8]⟩), .deliver 0 1,
   .proc 1 (.thread 0 .pollEvent), .proc 1 (.thread 0 .recv), .proc 1 (.thread 0 (.start 0)),
   .proc 1 (.thread 0 (.finish 0)), .proc 1 (.thread 0 .join)]

/-- `C78_at_most`, `C78_flat` -/
example := C78_at_most (fun _ => plainNet) flatCluster _ rfl (by simp [flatCluster]) [7, 8]
example (c : Cluster) (h : Cluster.init.run (fun _ => plainNet) flatCluster = some c) : ∃ pre post,
    c.log = pre ++ .at 1 0 (.net (.call 0 ⟨[7, 8]⟩ ⟨.v4 1 1 1 1 1⟩)) :: post ∧ ∃ b d first between dest address,
      pre = first ++ .at 1 0 (.arrive d) :: between ∧ .at 1 0 (.start b) ∈ pre ∧
      received b d = (⟨[7, 8]⟩, ⟨.v4 1 1 1 1 1⟩) ∧ (dest, d) ∈ emittedIn first ∧
      .at 1 0 (.bind .receiver address) ∈ first ∧ plainNet.reaches address dest = true := by
  have hl : c.log = c.log.take 9 ++ .at 1 0 (.net (.call 0 ⟨[7, 8]⟩ ⟨.v4 1 1 1 1 1⟩)) :: c.log.drop 10 := by
    cases h; rfl
  exact ⟨_, _, hl, C78_flat (fun _ => plainNet) flatCluster c h (by simp [flatCluster]) 1 0 0 _ _ _ _ hl⟩

end Ipv8
