import Verif.Props.Fairness
import Verif.Props.LiveMachine
/-!
# C102: fairness can be had everywhere at once

C100 for whole systems: any number of processes, each with its pool, and the network.  C97 speaks of lives of systems in
which nobody is passed over for ever; there are such lives from every state a system can get into, and against every
opponent, who plays the applications, the network and the foreign hosts and may interfere with all threads.
-/

namespace Ipv8
open Spec

/-! ## Specification -/

/-- Nobody in any process has anything to do (in processes with pool threads). -/
def Fleet.Quiet (f : Fleet) : Prop := ∀ m ∈ f.machines, 1 ≤ m.pool.threads → m.pool.Quiet

/-- A pool or a listening thread goes on, without a panic or an error. -/
def FLabel.normal : FLabel → Bool
  | .proc _ (.work x) => x.normal
  | _ => false

/-- What has happened in the first `m` moments. -/
def FleetLife.upTo {net : Nat → Net} (F : FleetLife net) (m : Nat) : List FLabel := (List.range m).filterMap F.label

/-- An opponent looks at everything that has happened and decides on some steps: of the applications (objects are
created, used, started, dropped), of the network (datagrams are lost, duplicated, readdressed, delivered), of foreign
hosts, of any thread; new processes are started.  They are made if they can be made. -/
def Fleet.played (net : Nat → Net) (f : Fleet) (opponent : List FLabel → List FLabel) (past : List FLabel) : List FLabel :=
  if (f.run net (opponent past)).isSome = true then opponent past else []

/-- The opponent gets its turn at these moments, infinitely often.  What it wants to happen then happens; in between only
the pools and the listening threads go on. -/
structure FleetLife.Opposed {net : Nat → Net} (F : FleetLife net) (opponent : List FLabel → List FLabel)
    (turn : Nat → Nat) : Prop where
  later : ∀ i, turn i + ((F.state (turn i)).played net opponent (F.upTo (turn i))).length < turn (i + 1)
  plays : ∀ i j, j < ((F.state (turn i)).played net opponent (F.upTo (turn i))).length →
    F.label (turn i + j) = ((F.state (turn i)).played net opponent (F.upTo (turn i)))[j]?
  between : ∀ i m x, turn i + ((F.state (turn i)).played net opponent (F.upTo (turn i))).length ≤ m → m < turn (i + 1) →
    F.label m = some x → x.normal = true

/-! ## Games -/

/-- Pieces of an execution, each longer than the one before, make an endless one. -/
theorem FleetLife.ofPieces {net : Nat → Net} (P : Nat → List (Option FLabel))
    (h1 : ∀ i, ∃ b, P (i + 1) = P i ++ b ∧ b ≠ [])
    (h2 : ∀ i, (Fleet.init.run net ((P i).filterMap id)).isSome = true) :
    ∃ F : FleetLife net, (∀ i m, m < (P i).length → (P i)[m]? = some (F.label m)) ∧
      (∀ i, F.upTo (P i).length = (P i).filterMap id) ∧
      ∀ m, Fleet.init.run net (F.upTo m) = some (F.state m) := by
  have hpre : ∀ i j, i ≤ j → P i <+: P j := by
    intro i j hij
    induction hij with
    | refl => exact List.prefix_refl _
    | step _ ih => obtain ⟨b, hb, _⟩ := h1 _; rw [hb]; exact ih.trans (List.prefix_append _ _)
  have hlen : ∀ i, i ≤ (P i).length := by
    intro i
    induction i with
    | zero => exact Nat.zero_le _
    | succ i ih =>
      obtain ⟨b, hb, hne⟩ := h1 i
      have : 1 ≤ b.length := List.length_pos_iff.mpr hne
      rw [hb, List.length_append]
      omega
  let label : Nat → Option FLabel := fun m => ((P (m + 1))[m]?).getD none
  have hlab : ∀ i m, m < (P i).length → (P i)[m]? = some (label m) := by
    intro i m hm
    have hm' : m < (P (m + 1)).length := hlen (m + 1)
    have e : (P i)[m]? = (P (m + 1))[m]? := by
      rcases Nat.le_total i (m + 1) with h | h
      · obtain ⟨b, hb⟩ := hpre _ _ h
        rw [← hb, List.getElem?_append_left hm]
      · obtain ⟨b, hb⟩ := hpre _ _ h
        rw [← hb, List.getElem?_append_left hm']
    rw [e]
    simp only [label]
    rw [List.getElem?_eq_getElem hm']
    rfl
  have htake : ∀ i m, m ≤ (P i).length → (List.range m).filterMap label = ((P i).take m).filterMap id := by
    intro i m
    induction m with
    | zero => intro _; simp
    | succ m ih =>
      intro hm
      rw [List.range_succ, List.filterMap_append, ih (by omega), List.take_add_one, List.filterMap_append, hlab i m (by omega)]
      rfl
  have hrun : ∀ m, ∃ s, Fleet.init.run net ((List.range m).filterMap label) = some s := by
    intro m
    rw [htake m m (hlen m)]
    obtain ⟨s, hs⟩ := Option.isSome_iff_exists.mp (h2 m)
    rw [← List.take_append_drop m (P m), List.filterMap_append, Fleet.run_append] at hs
    cases hr : Fleet.init.run net (((P m).take m).filterMap id) with
    | none => rw [hr] at hs; cases hs
    | some s' => exact ⟨s', rfl⟩
  obtain ⟨state, hstate⟩ := Classical.axiomOfChoice hrun
  have hstep : ∀ m, match label m with
      | some x => (state m).step net x = some (state (m + 1))
      | none => state (m + 1) = state m := by
    intro m
    have h := hstate (m + 1)
    rw [List.range_succ, List.filterMap_append, Fleet.run_append, hstate m, Option.bind_some] at h
    cases hx : label m with
    | none => simp only [List.filterMap_cons, hx, List.filterMap_nil, Fleet.run, Option.some.injEq] at h; exact h.symm
    | some x =>
      simp only [List.filterMap_cons, hx, List.filterMap_nil, Fleet.run] at h
      cases hs : (state m).step net x with
      | none => rw [hs] at h; cases h
      | some t => rw [hs] at h; simp only [Option.some.injEq] at h; rw [← h]; exact hs
  refine ⟨⟨state, label, ?_, hstep⟩, hlab, ?_, hstate⟩
  · have := hstate 0
    simp only [List.range_zero, List.filterMap_nil, Fleet.run, Option.some.injEq] at this
    exact this.symm
  · intro i
    have := htake i (P i).length (Nat.le_refl _)
    rw [List.take_length] at this
    exact this

theorem Fleet.played_run (net : Nat → Net) (f : Fleet) (opponent : List FLabel → List FLabel) (past : List FLabel) :
    ∃ f', f.run net (f.played net opponent past) = some f' := by
  unfold Fleet.played
  split
  · rename_i h
    exact Option.isSome_iff_exists.mp h
  · exact ⟨f, rfl⟩

/-- If the system can always come to rest, there is a life in which it does again and again while the opponent plays. -/
theorem FleetLife.game {net : Nat → Net} (Quiet : Fleet → Prop)
    (hd : ∀ ls f, Fleet.init.run net ls = some f →
      ∃ xs f', (∀ x ∈ xs, x.normal = true) ∧ f.run net xs = some f' ∧ Quiet f')
    (opponent : List FLabel → List FLabel) (ls : List FLabel) (f : Fleet) (h : Fleet.init.run net ls = some f) :
    ∃ (F : FleetLife net) (turn : Nat → Nat), turn 0 = ls.length ∧ F.upTo ls.length = ls ∧
      (∀ m, Fleet.init.run net (F.upTo m) = some (F.state m)) ∧
      F.Opposed opponent turn ∧ (∀ m, ∃ m', m ≤ m' ∧ Quiet (F.state m')) := by
  have hd' : ∀ ls : List FLabel, ∃ xs : List FLabel, ∀ s, Fleet.init.run net ls = some s →
      ∃ s', (∀ x ∈ xs, x.normal = true) ∧ s.run net xs = some s' ∧ Quiet s' := by
    intro ls
    cases hr : Fleet.init.run net ls with
    | none => exact ⟨[], fun s hs => by cases hs⟩
    | some s =>
      obtain ⟨xs, s', h1, h2, h3⟩ := hd ls s hr
      refine ⟨xs, fun t ht => ?_⟩
      cases ht
      exact ⟨s', h1, h2, h3⟩
  obtain ⟨drain, hdrain⟩ := Classical.axiomOfChoice hd'
  -- one round: the opponent plays, then everything comes to rest
  let now : List FLabel → Fleet := fun ls => (Fleet.init.run net ls).getD Fleet.init
  let move : List FLabel → List FLabel := fun ls => (now ls).played net opponent ls
  let round : List FLabel → List FLabel := fun ls => move ls ++ drain (ls ++ move ls)
  let block : List (Option FLabel) → List (Option FLabel) := fun p =>
    (round (p.filterMap id)).map some ++ [none]
  obtain ⟨P, hP0, hPs⟩ : ∃ P : Nat → List (Option FLabel), P 0 = ls.map some ∧ ∀ i, P (i + 1) = P i ++ block (P i) :=
    ⟨fun i => Nat.rec (ls.map some) (fun _ p => p ++ block p) i, rfl, fun _ => rfl⟩
  have hfm : ∀ l : List FLabel, (l.map some).filterMap id = l := by
    intro l
    rw [List.filterMap_map]
    simp
  have hround : ∀ l, (Fleet.init.run net l).isSome = true →
      ∃ t, Fleet.init.run net (l ++ round l) = some t ∧ Quiet t ∧ ∀ x ∈ drain (l ++ move l), x.normal = true := by
    intro l hl
    obtain ⟨t, ht⟩ := Option.isSome_iff_exists.mp hl
    have hnow : now l = t := by simp only [now, ht, Option.getD_some]
    obtain ⟨t1, ht1⟩ := Fleet.played_run net t opponent l
    have hr1 : Fleet.init.run net (l ++ move l) = some t1 := by
      rw [Fleet.run_append, ht]
      simp only [move, hnow, Option.bind_some]
      exact ht1
    obtain ⟨t2, g1, g2, g3⟩ := hdrain (l ++ move l) t1 hr1
    refine ⟨t2, ?_, g3, g1⟩
    simp only [round]
    rw [← List.append_assoc, Fleet.run_append, hr1]
    exact g2
  have hPf : ∀ i, (P (i + 1)).filterMap id = (P i).filterMap id ++ round ((P i).filterMap id) := by
    intro i
    rw [hPs, List.filterMap_append]
    simp only [block]
    rw [List.filterMap_append, hfm]
    simp
  have hrun : ∀ i, (Fleet.init.run net ((P i).filterMap id)).isSome = true := by
    intro i
    induction i with
    | zero => rw [hP0, hfm, h]; rfl
    | succ i ih =>
      obtain ⟨t, ht, _⟩ := hround _ ih
      rw [hPf, ht]
      rfl
  obtain ⟨F, hl, hu, hF⟩ := FleetLife.ofPieces (net := net) P (fun i => ⟨block (P i), hPs i, by simp [block]⟩) hrun
  have hstate : ∀ i, now ((P i).filterMap id) = F.state (P i).length := by
    intro i
    have := hF (P i).length
    rw [hu] at this
    simp only [now, this, Option.getD_some]
  have hmove : ∀ i, (F.state (P i).length).played net opponent (F.upTo (P i).length) = move ((P i).filterMap id) := by
    intro i
    rw [hu, ← hstate]
  have hblock : ∀ i m, m < (block (P i)).length → (block (P i))[m]? = some (F.label ((P i).length + m)) := by
    intro i m hm
    have := hl (i + 1) ((P i).length + m) (by rw [hPs, List.length_append]; omega)
    rw [hPs, List.getElem?_append_right (by omega)] at this
    rw [← this]
    congr 1
    omega
  have hblen : ∀ i, (block (P i)).length = (move ((P i).filterMap id)).length +
      (drain ((P i).filterMap id ++ move ((P i).filterMap id))).length + 1 := by
    intro i
    simp only [block, round, List.length_append, List.length_map, List.length_singleton]
  have hquiet : ∀ m, ∃ m', m ≤ m' ∧ Quiet (F.state m') := by
    intro m
    have hlen : ∀ i, i ≤ (P i).length := by
      intro i
      induction i with
      | zero => exact Nat.zero_le _
      | succ i ih => have := hblen i; rw [hPs, List.length_append]; omega
    obtain ⟨t, ht, hq, _⟩ := hround _ (hrun m)
    refine ⟨(P (m + 1)).length, Nat.le_trans (Nat.le_succ m) (hlen (m + 1)), ?_⟩
    rw [← hstate, hPf]
    simp only [now, ht, Option.getD_some]
    exact hq
  refine ⟨F, fun i => (P i).length, by simp only [hP0, List.length_map], ?_, hF, ⟨?_, ?_, ?_⟩, hquiet⟩
  · have := hu 0
    rw [hP0, List.length_map, hfm] at this
    exact this
  · intro i
    have := hblen i
    rw [hmove]
    simp only [hPs, List.length_append]
    omega
  · intro i j hj
    rw [hmove] at hj ⊢
    have hb := hblock i j (by have := hblen i; omega)
    have e : (block (P i))[j]? = ((move ((P i).filterMap id))[j]?).map some := by
      simp only [block, round]
      rw [List.map_append, List.append_assoc, List.getElem?_append_left (by rw [List.length_map]; exact hj), List.getElem?_map]
    rw [e, List.getElem?_eq_getElem hj] at hb
    simp only [Option.map_some, Option.some.injEq] at hb
    rw [← hb, List.getElem?_eq_getElem hj]
  · intro i m x h1 h2 hx
    rw [hmove] at h1
    simp only [hPs, List.length_append] at h2
    obtain ⟨j, rfl⟩ : ∃ j, m = (P i).length + j := ⟨m - (P i).length, by omega⟩
    have hb := hblock i j (by omega)
    rw [hx] at hb
    have hmem : some x ∈ (drain ((P i).filterMap id ++ move ((P i).filterMap id))).map some ++ [none] := by
      simp only [block, round] at hb
      rw [List.map_append, List.append_assoc, List.getElem?_append_right (by rw [List.length_map]; omega)] at hb
      exact List.mem_of_getElem? hb
    obtain ⟨t, _, _, hn⟩ := hround _ (hrun i)
    refine hn x ?_
    simpa using hmem

/-! ## Coming to rest -/

theorem normal_ofThreads {x : TLabel} (h : x.normal = true) : x.ofThreads = true := by
  cases x <;> simp_all [TLabel.normal, TLabel.calm, TLabel.ofThreads]
  case io k y => cases y <;> simp_all

/-- What the pool of one process can do, the system can do. -/
theorem fleet_works {net : Nat → Net} (k : Nat) : ∀ (xs : List TLabel) (f : Fleet) (m : Machine) (pool : Workers),
    f.machines[k]? = some m → (∀ x ∈ xs, x.normal = true) → m.pool.run xs = some pool →
    ∃ f' m', f.run net (xs.map fun x => .proc k (.work x)) = some f' ∧ f'.machines = f.machines.set k m' ∧
      m'.pool = pool := by
  intro xs
  induction xs with
  | nil =>
    intro f m pool hk _ h
    cases h
    refine ⟨f, m, rfl, ?_, rfl⟩
    obtain ⟨hlt, rfl⟩ := List.getElem?_eq_some_iff.mp hk
    exact List.set_getElem_self hlt |>.symm
  | cons x xs ih =>
    intro f m pool hk hn h
    simp only [Workers.run] at h
    cases hx : m.pool.step x with
    | none => rw [hx] at h; cases h
    | some p1 =>
      rw [hx] at h
      simp only at h
      obtain ⟨f1, m1, e1, e2, e3⟩ : ∃ f1 m1, f.step net (.proc k (.work x)) = some f1 ∧
          f1.machines = f.machines.set k m1 ∧ m1.pool = p1 := by
        simp only [Fleet.step, hk, Machine.step, normal_ofThreads (hn x List.mem_cons_self), if_true, hx]
        exact ⟨_, _, rfl, rfl, rfl⟩
      have hlt := (List.getElem?_eq_some_iff.mp hk).1
      obtain ⟨f', m', g1, g2, g3⟩ := ih f1 m1 pool (by rw [e2]; exact List.getElem?_set_self hlt)
        (fun y hy => hn y (List.mem_cons_of_mem _ hy)) (by rw [e3]; exact h)
      exact ⟨f', m', by simp only [List.map_cons, Fleet.run, e1]; exact g1, by rw [g2, e2, List.set_set], g3⟩

theorem fleet_rest (net : Nat → Net) (ls : List FLabel) (f : Fleet) (h : Fleet.init.run net ls = some f) :
    ∃ xs f', (∀ x ∈ xs, x.normal = true) ∧ f.run net xs = some f' ∧ f'.Quiet := by
  have key : ∀ c, c ≤ f.machines.length → ∃ xs f', (∀ x ∈ xs, x.normal = true) ∧ f.run net xs = some f' ∧
      f'.machines.length = f.machines.length ∧
      ∀ (i : Nat) (m : Machine), i < c → f'.machines[i]? = some m → 1 ≤ m.pool.threads → m.pool.Quiet := by
    intro c
    induction c with
    | zero => exact fun _ => ⟨[], f, by simp, rfl, rfl, fun i m hi => absurd hi (Nat.not_lt_zero _)⟩
    | succ c ih =>
      intro hc
      obtain ⟨xs, f1, h1, h2, h3, h4⟩ := ih (by omega)
      have hr1 : Fleet.init.run net (ls ++ xs) = some f1 := by rw [Fleet.run_append, h]; exact h2
      have hlt : c < f1.machines.length := by omega
      have hk : f1.machines[c]? = some f1.machines[c] := List.getElem?_eq_getElem hlt
      generalize f1.machines[c] = m at hk
      by_cases hn : 1 ≤ m.pool.threads
      · obtain ⟨ts, hts⟩ := fleet_pool_run net c m.pool.threads (ls ++ xs) [] Fleet.init f1 [] rfl rfl hr1
          (by intro m' hm'; rw [hk] at hm'; cases hm'; rfl)
        have hp : f1.pool c m.pool.threads = m.pool := by simp only [Fleet.pool, hk]
        rw [hp] at hts
        obtain ⟨ys, p, g1, g2, g3⟩ := C100_rest _ hn ts m.pool hts
        obtain ⟨f2, m2, g4, g5, g6⟩ := fleet_works (net := net) c ys f1 m p hk g1 g2
        refine ⟨xs ++ ys.map fun x => .proc c (.work x), f2, ?_, ?_, ?_, ?_⟩
        · intro x hx
          rcases List.mem_append.mp hx with hx | hx
          · exact h1 x hx
          · obtain ⟨y, hy, rfl⟩ := List.mem_map.mp hx
            exact g1 y hy
        · rw [Fleet.run_append, h2]; exact g4
        · rw [g5, List.length_set, h3]
        · intro i mi hi hmi hni
          rw [g5] at hmi
          by_cases hic : i = c
          · subst hic
            rw [List.getElem?_set_self hlt] at hmi
            cases hmi
            rw [g6]
            exact g3
          · rw [List.getElem?_set_ne (Ne.symm hic)] at hmi
            exact h4 i mi (by omega) hmi hni
      · refine ⟨xs, f1, h1, h2, h3, ?_⟩
        intro i mi hi hmi hni
        by_cases hic : i = c
        · subst hic
          rw [hk] at hmi
          cases hmi
          exact absurd hni hn
        · exact h4 i mi (by omega) hmi hni
  obtain ⟨xs, f', h1, h2, h3, h4⟩ := key _ (Nat.le_refl _)
  refine ⟨xs, f', h1, h2, ?_⟩
  intro m hm hn
  obtain ⟨i, hi⟩ := List.getElem?_of_mem hm
  exact h4 i m (by have := (List.getElem?_eq_some_iff.mp hi).1; omega) hi hn

/-! ## The theorems -/

/-- C102. Wherever a system of processes has got to: their pools and listening threads can go on, without a panic or an
error and without anything else happening, until nobody anywhere has anything to do. -/
theorem C102_rest (net : Nat → Net) (ls : List FLabel) (f : Fleet) (h : Fleet.init.run net ls = some f) :
    ∃ xs f', (∀ x ∈ xs, x.normal = true) ∧ f.run net xs = some f' ∧ f'.Quiet := fleet_rest net ls f h

/-- C102. Every execution of a system can go on in such a way that nobody in any process that has pool threads is passed
over for ever, and an opponent who plays the applications, the network, the foreign hosts and, whenever it likes, any
thread cannot prevent it. -/
theorem C102 (net : Nat → Net) (opponent : List FLabel → List FLabel) (ls : List FLabel) (f : Fleet)
    (h : Fleet.init.run net ls = some f) :
    ∃ (F : FleetLife net) (turn : Nat → Nat), turn 0 = ls.length ∧ F.upTo ls.length = ls ∧ F.state ls.length = f ∧
      F.Opposed opponent turn ∧
      ∀ n0 k a (hk : (F.state n0).machines[k]? = some a), 1 ≤ a.pool.threads →
        (F.workers n0 k a hk).Fair ∧ ∀ i, (F.workers n0 k a hk).FairTo i := by
  obtain ⟨F, turn, h0, h1, hF, h2, h3⟩ := FleetLife.game (net := net) Fleet.Quiet (fleet_rest net) opponent ls f h
  refine ⟨F, turn, h0, h1, ?_, h2, fun n0 k a hk hn => ?_⟩
  · have := hF ls.length
    rw [h1, h] at this
    exact (Option.some.inj this).symm
  have hq : ∀ m, ∃ m', m ≤ m' ∧ ((F.workers n0 k a hk).state m').Quiet := by
    intro m
    obtain ⟨m', g1, g2⟩ := h3 m
    refine ⟨m', g1, ?_⟩
    show ((F.state m').pool k a.pool.threads).Quiet
    cases hm : (F.state m').machines[k]? with
    | none =>
      simp only [Fleet.pool, hm]
      exact ⟨rfl, by simp⟩
    | some b =>
      simp only [Fleet.pool, hm]
      refine g2 b (List.mem_of_getElem? hm) ?_
      rw [F.size n0 k a hk m' b hm]
      exact hn
  exact ⟨(F.workers n0 k a hk).fair_of_quiet hq, (F.workers n0 k a hk).fairTo_of_quiet hq⟩

/-- What happens is either what the opponent wants or normal. -/
theorem FleetLife.Opposed.cases {net : Nat → Net} {F : FleetLife net} {opponent : List FLabel → List FLabel}
    {turn : Nat → Nat} (h : F.Opposed opponent turn) {m : Nat} {x : FLabel} (hm : turn 0 ≤ m) (hx : F.label m = some x) :
    x.normal = true ∨ ∃ past, x ∈ opponent past := by
  have hlt : ∀ i, turn i < turn (i + 1) := fun i => by have := h.later i; omega
  have hge : ∀ i, i ≤ turn i := by
    intro i
    induction i with
    | zero => exact Nat.zero_le _
    | succ i ih => have := hlt i; omega
  obtain ⟨i, _, _, h1, h2⟩ := leaves (P := fun i => turn i ≤ m) (Nat.zero_le (m + 1)) hm (by
    have := hge (m + 1); omega)
  by_cases hb : turn i + ((F.state (turn i)).played net opponent (F.upTo (turn i))).length ≤ m
  · exact .inl (h.between i m x hb (by omega) hx)
  · right
    have hp := h.plays i (m - turn i) (by omega)
    rw [show turn i + (m - turn i) = m by omega, hx] at hp
    have hmem := List.mem_of_getElem? hp.symm
    refine ⟨F.upTo (turn i), ?_⟩
    unfold Fleet.played at hmem
    split at hmem
    · exact hmem
    · cases hmem

/-! ## A stream of messages -/

/-- Steps that do not create or drop anything: threads go on, something is sent or delivered. -/
def FLabel.mild : FLabel → Bool
  | .proc _ (.work _) => true
  | .proc _ (.object (.send _ _ _)) => true
  | .deliver _ _ => true
  | _ => false

theorem normal_mild {x : FLabel} (h : x.normal = true) : x.mild = true := by
  unfold FLabel.normal at h
  split at h
  · rfl
  · cases h

theorem mild_keeps {net : Nat → Net} {f f' : Fleet} {x : FLabel} (h : f.step net x = some f') (hx : x.mild = true)
    (j : Nat) (b : Machine) (hj : f.machines[j]? = some b) :
    ∃ b', f'.machines[j]? = some b' ∧ b'.senders = b.senders := by
  have hlt := (List.getElem?_eq_some_iff.mp hj).1
  have key : ∀ (k : Nat) (m m' : Machine), f.machines[k]? = some m → m'.senders = m.senders →
      ∃ b', (f.machines.set k m')[j]? = some b' ∧ b'.senders = b.senders := by
    intro k m m' hk hm
    by_cases he : k = j
    · subst he
      rw [hj] at hk
      cases hk
      exact ⟨m', List.getElem?_set_self hlt, hm⟩
    · exact ⟨b, by rw [List.getElem?_set_ne he]; exact hj, rfl⟩
  unfold FLabel.mild at hx
  split at hx
  · rename_i k y
    simp only [Fleet.step, Machine.step] at h
    repeat' split at h
    all_goals cases h
    rename_i hm _ _ hw
    repeat' split at hw
    all_goals cases hw
    exact key _ _ _ hm rfl
  · rename_i k i address packet
    simp only [Fleet.step, Machine.step, NLabel.ofObjects, if_true, Node.step, Machine.objects] at h
    repeat' split at h
    all_goals cases h
    rename_i hm _ _ hw
    repeat' split at hw
    all_goals cases hw
    rename_i hw
    repeat' split at hw
    all_goals cases hw
    exact key _ _ _ hm rfl
  · rename_i i k
    simp only [Fleet.step] at h
    repeat' split at h
    all_goals cases h
    rename_i hm
    exact key _ _ _ hm rfl
  · cases hx

/-- Threads and senders do not make anything arrive. -/
theorem mild_arrived {net : Nat → Net} {f f' : Fleet} {x : FLabel} (h : f.step net x = some f') (hx : x.mild = true)
    (k : Nat) (hd : ∀ i, x ≠ .deliver i k) (s : Nat) :
    arrivedIn (history s (processLog k f'.log)) = arrivedIn (history s (processLog k f.log)) := by
  have key : ∀ (j : Nat) (es : List (Nat × NEv)), (∀ s d, (s, NEv.arrive d) ∉ es) ∨ j ≠ k →
      f'.log = f.log ++ es.map (fun e => .at j e.1 e.2) →
      arrivedIn (history s (processLog k f'.log)) = arrivedIn (history s (processLog k f.log)) := by
    intro j es he hl
    rw [hl, processLog_append, history_append, arrivedIn_append]
    have : arrivedIn (history s (processLog k (es.map fun e => .at j e.1 e.2))) = [] := by
      by_cases hjk : j = k
      · subst hjk
        rw [processLog_same]
        match hl : arrivedIn (history s es) with
        | [] => rfl
        | d :: _ =>
          have : d ∈ arrivedIn (history s es) := by rw [hl]; exact List.mem_cons_self
          rcases he with he | he
          · exact absurd (mem_history (mem_arrivedIn this)) (he s d)
          · exact absurd rfl he
      · rw [processLog_other hjk]
        rfl
    rw [this, List.append_nil]
  unfold FLabel.mild at hx
  split at hx
  · rename_i j y
    simp only [Fleet.step, Machine.step] at h
    repeat' split at h
    all_goals cases h
    rename_i hm _ _ hw
    repeat' split at hw
    all_goals cases hw
    refine key j _ (.inl ?_) rfl
    intro s d hmem
    simp only [List.drop_left] at hmem
    obtain ⟨t, _, hmem⟩ := List.mem_flatMap.mp hmem
    obtain ⟨e, _, he⟩ := List.mem_map.mp hmem
    cases he
  · rename_i j i address packet
    simp only [Fleet.step, Machine.step, NLabel.ofObjects, if_true, Node.step, Machine.objects] at h
    repeat' split at h
    all_goals cases h
    rename_i hm _ _ hw
    repeat' split at hw
    all_goals cases hw
    rename_i hw
    repeat' split at hw
    all_goals cases hw
    refine key j _ (.inl ?_) rfl
    intro s d
    simp only [List.drop_left]
    simp
  · rename_i i j
    simp only [Fleet.step] at h
    repeat' split at h
    all_goals cases h
    refine key j _ (.inr ?_) rfl
    rintro rfl
    exact hd i rfl
  · cases hx

/-- A delivery does, exactly one. -/
theorem deliver_arrived {net : Nat → Net} {ls : List FLabel} {f f' : Fleet} (hr : Fleet.init.run net ls = some f)
    {i k : Nat} (h : f.step net (.deliver i k) = some f') {m : Machine} (hk : f.machines[k]? = some m) {t : PThread}
    (ht : t ∈ m.threads) {dest : SocketAddr} {d : Datagram} (ha : f.air[i]? = some (dest, d))
    (hd : (net k).reaches t.address dest = true) :
    arrivedIn (history t.socket (processLog k f'.log)) = arrivedIn (history t.socket (processLog k f.log)) ++ [d] := by
  simp only [Fleet.step, ha, hk, Option.some.injEq] at h
  subst h
  simp only [Machine.arrive, List.drop_left]
  rw [processLog_append, processLog_same, history_append, arrivedIn_append]
  obtain ⟨c, hc, hruns⟩ := fleet_reached net ls f hr
  obtain ⟨nd, g1, g2⟩ := hc.machines k m hk
  obtain ⟨⟨lk, g3⟩, -⟩ := hruns k nd g1
  have hinv := node_run _ lk _ _ (Node.init_inv _) g3
  obtain ⟨ti, hti⟩ := List.getElem?_of_mem ht
  obtain ⟨th, i1, i2, i3, -⟩ := g2.thread ti t hti
  rw [← g2.sockets, Node.sockets_eq, List.filter_map, List.map_map]
  have := history_arrive (net k) dest d t.socket nd.objs hinv.nodup
  rw [if_pos] at this
  · have e : (nd.objs.filter ((fun x : Nat × SocketAddr => (net k).reaches x.2 dest) ∘ fun x => (x.1, x.2.address))).map
        ((fun x : Nat × SocketAddr => (x.1, NEv.arrive d)) ∘ fun x => (x.1, x.2.address)) =
        (nd.objs.filter fun x => (net k).reaches x.2.address dest).map fun x => (x.1, .arrive d) := rfl
    rw [e, this]
    rfl
  · rw [List.any_eq_true]
    refine ⟨_, thread_mem_objs (List.mem_of_getElem? i1), ?_⟩
    simp only [Obj.address, i2, i3, hd, beq_self_eq_true, Bool.and_self]

theorem FleetLife.upTo_succ {net : Nat → Net} (F : FleetLife net) (m : Nat) :
    F.upTo (m + 1) = F.upTo m ++ (F.label m).toList := by
  unfold FleetLife.upTo
  rw [List.range_succ, List.filterMap_append]
  cases h : F.label m <;> simp [h]

theorem FleetLife.run_upTo {net : Nat → Net} (F : FleetLife net) (m : Nat) :
    Fleet.init.run net (F.upTo m) = some (F.state m) := by
  induction m with
  | zero => rw [F.start]; rfl
  | succ m ih =>
    rw [F.upTo_succ, Fleet.run_append, ih, Option.bind_some]
    have hs := F.step m
    cases hx : F.label m with
    | none => rw [hx] at hs; simp only at hs; rw [hs]; rfl
    | some x => rw [hx] at hs; simp only at hs; simp only [Option.toList_some, Fleet.run, hs]

/-- What is sent is on its way, behind everything else. -/
theorem send_step {net : Nat → Net} {f : Fleet} {j i : Nat} {b : Machine} {x : OpenSender} (hj : f.machines[j]? = some b)
    (hx : b.senders[i]? = some x) (address : Address) (packet : Packet) :
    ∃ f', f.step net (.proc j (.object (.send i address packet))) = some f' ∧
      f'.air = f.air ++ [(address.sock, ⟨packet.bytes, x.address⟩)] ∧ f'.machines.length = f.machines.length := by
  have hsend := (C66_send (net j) b.objects i x address packet).1 hx
  simp only [Fleet.step, hj, Machine.step, NLabel.ofObjects, if_true, hsend]
  refine ⟨_, rfl, ?_, ?_⟩
  · simp [Machine.objects, outgoing]
  · simp

theorem deliver_step {net : Nat → Net} {f : Fleet} {i k : Nat} (hi : i < f.air.length) (hk : k < f.machines.length) :
    ∃ f', f.step net (.deliver i k) = some f' := by
  simp only [Fleet.step, List.getElem?_eq_getElem hi, List.getElem?_eq_getElem hk]
  exact ⟨_, rfl⟩

/-- Arrivals in socket `s` of process `k`. -/
def FleetLife.arrived {net : Nat → Net} (F : FleetLife net) (k s m : Nat) : List Datagram :=
  arrivedIn (history s (processLog k (F.state m).log))

def FLabel.isDeliver : FLabel → Bool
  | .deliver _ _ => true
  | _ => false

/-- The two theorems below. -/
theorem fleet_stream (net : Nat → Net) (ls : List FLabel) (f : Fleet) (h : Fleet.init.run net ls = some f)
    (k : Nat) (a : Machine) (hk : f.machines[k]? = some a) (hsize : 1 ≤ a.pool.threads)
    (t : PThread) (ht : t ∈ a.threads) (u : RMember) (hu : a.pool.members[t.member]? = some u) (hp : NoPanics u.listener)
    (hs : ∀ y, .proc k (.work (.io t.member y)) ∈ ls → y = .pollEvent ∨ y = .recv ∨ y = .pollTimeout)
    (process sender : Nat → Nat) (address : Nat → Address) (packet : Nat → Packet) (source : Nat → SocketAddr)
    (hsend : ∀ i, ∃ b x, f.machines[process i]? = some b ∧ b.senders[sender i]? = some x ∧ x.address = source i)
    (hr : ∀ i, (net k).reaches t.address (address i).sock = true) :
    ∃ (F : FleetLife net) (sent : Nat → Nat), F.upTo ls.length = ls ∧ F.state ls.length = f ∧
      (∀ i, ls.length ≤ sent i ∧ sent i < sent (i + 1) ∧
        F.label (sent i) = some (.proc (process i) (.object (.send (sender i) (address i) (packet i))))) ∧
      (∀ m, ls.length ≤ m → ∃ i, F.arrived k t.socket m =
        F.arrived k t.socket ls.length ++ (List.range i).map fun i => ⟨(packet i).bytes, source i⟩) ∧
      (∀ i, ∃ m, sent i < m ∧ ∀ r, r < u.listener.receivers.length → ∃ n, i < n ∧
        callsOf r (threadIn (history t.socket (processLog k (F.state m).log))) =
          (F.arrived k t.socket ls.length ++ (List.range n).map fun i => (⟨(packet i).bytes, source i⟩ : Datagram)).map
            (received u.listener.buffersize)) ∧
      ∀ m, ls.length ≤ m → ∃ queued xs s, u.listener.run (u.listener.init queued) xs = some s ∧
        s.trace = threadIn (history t.socket (processLog k (F.state m).log)) := by
  let index : List FLabel → Nat := fun past => past.countP FLabel.isDeliver - ls.countP FLabel.isDeliver
  let opponent : List FLabel → List FLabel := fun past =>
    [.proc (process (index past)) (.object (.send (sender (index past)) (address (index past)) (packet (index past)))),
      .deliver ((Fleet.init.run net past).getD Fleet.init).air.length k]
  obtain ⟨F, turn, h0, h1, hf, hop, hfair⟩ := C102 net opponent ls f h
  have hk' : (F.state ls.length).machines[k]? = some a := by rw [hf]; exact hk
  obtain ⟨fair, fairTo⟩ := hfair ls.length k a hk' hsize
  have hlt : ∀ i, turn i < turn (i + 1) := fun i => by have := hop.later i; omega
  have hge : ∀ i, i ≤ turn i ∧ ls.length ≤ turn i := by
    intro i
    induction i with
    | zero => exact ⟨Nat.zero_le _, by omega⟩
    | succ i ih => have := hlt i; omega
  have hmild : ∀ m x, ls.length ≤ m → F.label m = some x → x.normal = true ∨
      (∃ c, x = .proc (process c) (.object (.send (sender c) (address c) (packet c)))) ∨ ∃ c, x = .deliver c k := by
    intro m x hm hx
    rcases hop.cases (by omega) hx with hx | ⟨past, hx⟩
    · exact .inl hx
    · simp only [opponent, List.mem_cons, List.not_mem_nil, or_false] at hx
      rcases hx with rfl | rfl
      · exact .inr (.inl ⟨_, rfl⟩)
      · exact .inr (.inr ⟨_, rfl⟩)
  have hmild' : ∀ m x, ls.length ≤ m → F.label m = some x → x.mild = true := by
    intro m x hm hx
    rcases hmild m x hm hx with hx | ⟨c, rfl⟩ | ⟨c, rfl⟩
    · exact normal_mild hx
    · rfl
    · rfl
  -- the senders stay
  have hsenders : ∀ m, ls.length ≤ m → ∀ (j : Nat) (b : Machine), f.machines[j]? = some b →
      ∃ b' : Machine, (F.state m).machines[j]? = some b' ∧ b'.senders = b.senders := by
    intro m hm j b hj
    induction hm with
    | refl => exact ⟨b, by rw [hf]; exact hj, rfl⟩
    | @step m hm ih =>
      obtain ⟨b', g1, g2⟩ := ih
      have hst := F.step m
      cases hx : F.label m with
      | none => rw [hx] at hst; simp only at hst; exact ⟨b', by rw [hst]; exact g1, g2⟩
      | some x =>
        rw [hx] at hst
        simp only at hst
        obtain ⟨b'', g3, g4⟩ := mild_keeps hst (hmild' m x hm hx) j b' g1
        exact ⟨b'', g3, g4.trans g2⟩
  -- nothing goes wrong
  have hl : (F.workers ls.length k a hk').Settled := by
    refine ⟨ls.length, fun m l q hm hx => ?_⟩
    change (F.label m).bind _ = _ at hx
    cases hlab : F.label m with
    | none => rw [hlab] at hx; cases hx
    | some x =>
      rw [hlab, Option.bind_some] at hx
      rcases hmild m x hm hlab with hn | ⟨c, rfl⟩ | ⟨c, rfl⟩
      · unfold FLabel.normal at hn
        split at hn
        · simp only [Fleet.poolLabel] at hx
          split at hx
          · cases hb : (F.state m).machines[k]? with
            | none => rw [hb] at hx; cases hx
            | some b =>
              rw [hb] at hx
              simp only [Option.bind_some, Machine.poolLabel, Option.some.injEq] at hx
              subst hx
              cases hn
          · cases hx
        · cases hn
      · simp only [Fleet.poolLabel] at hx
        split at hx
        · cases hb : (F.state m).machines[k]? with
          | none => rw [hb] at hx; cases hx
          | some b => rw [hb] at hx; cases hx
        · cases hx
      · simp only [Fleet.poolLabel, if_true] at hx
        split at hx
        · obtain ⟨_, _, hx⟩ := Option.map_eq_some_iff.mp hx
          cases hx
        · cases hx
  have hst : (F.workers ls.length k a hk').SmoothAt t.member := by
    intro m y hx
    change (F.label m).bind _ = _ at hx
    cases hlab : F.label m with
    | none => rw [hlab] at hx; cases hx
    | some x =>
      rw [hlab, Option.bind_some] at hx
      unfold Fleet.poolLabel at hx
      split at hx
      · rename_i j z
        split at hx
        · rename_i hjk
          subst hjk
          cases hb : (F.state m).machines[j]? with
          | none => rw [hb] at hx; cases hx
          | some b =>
            rw [hb] at hx
            simp only [Option.bind_some] at hx
            unfold Machine.poolLabel at hx
            split at hx
            · obtain ⟨_, _, hx⟩ := Option.map_eq_some_iff.mp hx
              cases hx
            · obtain ⟨_, _, hx⟩ := Option.map_eq_some_iff.mp hx
              cases hx
            · cases hx
              rcases Nat.lt_or_ge m ls.length with hm | hm
              · have : FLabel.proc j (.work (.io t.member y)) ∈ F.upTo ls.length := by
                  unfold FleetLife.upTo
                  exact List.mem_filterMap.mpr ⟨m, List.mem_range.mpr hm, hlab⟩
                rw [h1] at this
                rcases hs y this with h | h | h
                · exact .inl h
                · exact .inr (.inl h)
                · exact .inr (.inr (.inl h))
              · rcases hmild m _ hm hlab with hn | ⟨c, hn⟩ | ⟨c, hn⟩
                · cases y <;> simp [FLabel.normal, TLabel.normal, TLabel.calm] at hn ⊢
                · cases hn
                · cases hn
            · cases hx
        · cases hx
      · split at hx
        · split at hx
          · obtain ⟨_, _, hx⟩ := Option.map_eq_some_iff.mp hx
            simp only [TLabel.io.injEq] at hx
            exact .inr (.inr (.inr ⟨_, hx.2.symm⟩))
          · cases hx
        · cases hx
      · cases hx
  obtain ⟨E, -, -, hstays, -, e5⟩ := F.follow ls.length k a hk' hsize fair hl t ht u hu hp (fairTo t.member) hst
  -- turns
  have hturn : ∀ i c, index (F.upTo (turn i)) = c →
      F.label (turn i) = some (.proc (process c) (.object (.send (sender c) (address c) (packet c)))) ∧
      F.label (turn i + 1) = some (.deliver (F.state (turn i)).air.length k) ∧
      (F.state (turn i + 1)).air[(F.state (turn i)).air.length]? =
        some ((address c).sock, ⟨(packet c).bytes, source c⟩) ∧
      turn i + 2 < turn (i + 1) ∧
      ∀ m x, turn i + 2 ≤ m → m < turn (i + 1) → F.label m = some x → x.normal = true := by
    intro i c hc
    have hr' := F.run_upTo (turn i)
    have hopp : opponent (F.upTo (turn i)) =
        [.proc (process c) (.object (.send (sender c) (address c) (packet c))),
          .deliver (F.state (turn i)).air.length k] := by
      simp only [opponent, hc, hr', Option.getD_some]
    obtain ⟨b, x, b1, b2, b3⟩ := hsend c
    obtain ⟨b', b4, b5⟩ := hsenders (turn i) (hge i).2 _ b b1
    obtain ⟨f1, e1, e2, e3⟩ := send_step (net := net) b4 (by rw [b5]; exact b2) (address c) (packet c)
    obtain ⟨kb, kb1, -⟩ := hstays (turn i) (hge i).2
    have hklt := (List.getElem?_eq_some_iff.mp kb1).1
    obtain ⟨f2, e4⟩ := deliver_step (net := net) (f := f1) (i := (F.state (turn i)).air.length) (k := k)
      (by rw [e2, List.length_append, List.length_singleton]; omega) (by rw [e3]; exact hklt)
    have hplayed : (F.state (turn i)).played net opponent (F.upTo (turn i)) =
        [.proc (process c) (.object (.send (sender c) (address c) (packet c))),
          .deliver (F.state (turn i)).air.length k] := by
      unfold Fleet.played
      rw [if_pos, hopp]
      rw [hopp]
      simp only [Fleet.run, e1, e4, Option.isSome_some]
    have hla := hop.later i
    have hbe := hop.between i
    have hp0 := hop.plays i 0
    have hp1 := hop.plays i 1
    rw [hplayed] at hla hbe hp0 hp1
    simp only [List.length_cons, List.length_nil, Nat.zero_add, Nat.reduceAdd] at hla hbe hp0 hp1
    have hl0 := hp0 (by omega)
    refine ⟨hl0, hp1 (by omega), ?_, hla, hbe⟩
    have hst0 := F.step (turn i)
    rw [Nat.add_zero] at hl0
    simp only [List.getElem?_cons_zero] at hl0
    rw [hl0] at hst0
    simp only at hst0
    rw [e1] at hst0
    cases hst0
    rw [e2, List.getElem?_append_right (Nat.le_refl _), Nat.sub_self, b3]
    rfl
  -- arrivals and deliveries
  have hcalm : ∀ m, ls.length ≤ m → (∀ x, F.label m = some x → x.normal = true ∨
        ∃ c, x = .proc (process c) (.object (.send (sender c) (address c) (packet c)))) →
      F.arrived k t.socket (m + 1) = F.arrived k t.socket m ∧
      (F.upTo (m + 1)).countP FLabel.isDeliver = (F.upTo m).countP FLabel.isDeliver := by
    intro m hm hx
    have hst := F.step m
    rw [F.upTo_succ, List.countP_append]
    cases hlab : F.label m with
    | none =>
      rw [hlab] at hst
      simp only at hst
      exact ⟨by unfold FleetLife.arrived; rw [hst], by simp⟩
    | some x =>
      rw [hlab] at hst
      simp only at hst
      have hnd : ∀ c, x ≠ .deliver c k := by
        intro c hc
        subst hc
        rcases hx _ hlab with hn | ⟨c, hn⟩
        · cases hn
        · cases hn
      refine ⟨mild_arrived hst (hmild' m x hm hlab) k hnd t.socket, ?_⟩
      have : x.isDeliver = false := by
        rcases hx _ hlab with hn | ⟨c, rfl⟩
        · unfold FLabel.normal at hn
          split at hn
          · rfl
          · cases hn
        · rfl
      simp [this]
  have hdel : ∀ m c dest d, ls.length ≤ m → F.label m = some (.deliver c k) → (F.state m).air[c]? = some (dest, d) →
      (net k).reaches t.address dest = true →
      F.arrived k t.socket (m + 1) = F.arrived k t.socket m ++ [d] ∧
      (F.upTo (m + 1)).countP FLabel.isDeliver = (F.upTo m).countP FLabel.isDeliver + 1 := by
    intro m c dest d hm hlab ha hd
    obtain ⟨b, hb, htb⟩ := hstays m hm
    have hst := F.step m
    rw [hlab] at hst
    refine ⟨deliver_arrived (F.run_upTo m) hst hb htb ha hd, ?_⟩
    rw [F.upTo_succ, List.countP_append, hlab]
    simp [FLabel.isDeliver]
  let datagram : Nat → Datagram := fun i => ⟨(packet i).bytes, source i⟩
  have harr : ∀ i, F.arrived k t.socket (turn i) = F.arrived k t.socket ls.length ++ (List.range i).map datagram →
      (F.upTo (turn i)).countP FLabel.isDeliver = ls.countP FLabel.isDeliver + i →
      F.arrived k t.socket (turn i + 1) = F.arrived k t.socket ls.length ++ (List.range i).map datagram ∧
      ∀ m, turn i + 1 < m → m ≤ turn (i + 1) →
        F.arrived k t.socket m = F.arrived k t.socket ls.length ++ (List.range (i + 1)).map datagram ∧
        (F.upTo m).countP FLabel.isDeliver = ls.countP FLabel.isDeliver + (i + 1) := by
    intro i hA hD
    obtain ⟨t1, t2, t3, t4, t5⟩ := hturn i i (by simp only [index, hD]; omega)
    have s1 := hcalm (turn i) (hge i).2 (fun x hx => by rw [t1] at hx; cases hx; exact .inr ⟨i, rfl⟩)
    refine ⟨by rw [s1.1, hA], fun m hm => ?_⟩
    induction hm with
    | refl =>
      intro _
      obtain ⟨g1, g2⟩ := hdel (turn i + 1) _ _ _ (by have := (hge i).2; omega) t2 t3 (hr i)
      refine ⟨?_, by rw [g2, s1.2, hD]; omega⟩
      rw [g1, s1.1, hA, List.range_succ, List.map_append, List.append_assoc]
      rfl
    | @step m hm ih =>
      intro hle
      have hm : turn i + 2 ≤ m := hm
      obtain ⟨g1, g2⟩ := ih (by omega)
      obtain ⟨g3, g4⟩ := hcalm m (by have := (hge i).2; omega) (fun x hx => .inl (t5 m x hm (by omega) hx))
      exact ⟨g3.trans g1, g4.trans g2⟩
  have hall : ∀ i, F.arrived k t.socket (turn i) = F.arrived k t.socket ls.length ++ (List.range i).map datagram ∧
      (F.upTo (turn i)).countP FLabel.isDeliver = ls.countP FLabel.isDeliver + i := by
    intro i
    induction i with
    | zero => rw [h0, h1]; simp
    | succ i ih =>
      obtain ⟨-, -, -, t4, -⟩ := hturn i i (by simp only [index, ih.2]; omega)
      exact (harr i ih.1 ih.2).2 (turn (i + 1)) (by omega) (Nat.le_refl _)
  have hindex : ∀ i, index (F.upTo (turn i)) = i := by
    intro i
    simp only [index, (hall i).2]
    omega
  have hend : ∀ m, ∃ m' i dest d, m ≤ m' ∧ F.label m' = some (.deliver i k) ∧ (F.state m').air[i]? = some (dest, d) ∧
      (net k).reaches t.address dest = true := by
    intro m
    obtain ⟨-, t2, t3, -⟩ := hturn m m (hindex m)
    exact ⟨turn m + 1, _, _, _, by have := (hge m).1; omega, t2, t3, hr m⟩
  have hcame : ∀ m, ls.length ≤ m → ∃ i, F.arrived k t.socket m =
      F.arrived k t.socket ls.length ++ (List.range i).map datagram := by
    intro m hm
    obtain ⟨i, _, _, g1, g2⟩ := leaves (P := fun i => turn i ≤ m) (Nat.zero_le (m + 1)) (by omega) (by
      have := hge (m + 1); omega)
    rcases (show m = turn i ∨ m = turn i + 1 ∨ turn i + 1 < m by omega) with rfl | rfl | hlt'
    · exact ⟨i, (hall i).1⟩
    · exact ⟨i, (harr i (hall i).1 (hall i).2).1⟩
    · exact ⟨i + 1, ((harr i (hall i).1 (hall i).2).2 m hlt' (by omega)).1⟩
  refine ⟨F, turn, h1, hf, fun i => ⟨(hge i).2, hlt i, (hturn i i (hindex i)).1⟩, hcame, ?_, ?_⟩
  · intro i
    obtain ⟨m, g1, g2⟩ := C97_arrived net F ls.length k a hk' hsize fair hl t ht u hu hp (fairTo t.member) hst hend
      (turn (i + 1)) ((F.arrived k t.socket ls.length).length + i) (datagram i) (by
        have := (hall (i + 1)).1
        unfold FleetLife.arrived at this
        rw [this, List.getElem?_append_right (by unfold FleetLife.arrived; omega)]
        simp [FleetLife.arrived])
    have hm : ls.length ≤ m := by have := (hge (i + 1)).2; omega
    refine ⟨m, by have := hlt i; omega, fun r hr => ?_⟩
    -- the calls are a prefix of what came
    have hpre : callsOf r (threadIn (history t.socket (processLog k (F.state m).log))) <+:
        (F.arrived k t.socket m).map (received u.listener.buffersize) := by
      obtain ⟨c1, taken, c2, c3⟩ := e5 m hm
      have c4 : takenIn (E.state m).trace <+: (F.arrived k t.socket m).map (received u.listener.buffersize) := by
        unfold FleetLife.arrived
        rw [c2, c3, List.map_append]
        exact List.prefix_append _ _
      refine List.IsPrefix.trans ?_ c4
      rw [c1]
      rcases (C43_always _ _ _ _ (E.run m)).1 r hr with h | ⟨cur, h⟩
      · rw [h]; exact List.prefix_refl _
      · exact ⟨_, h⟩
    obtain ⟨n', hn'⟩ := hcame m hm
    have hlen := (List.getElem?_eq_some_iff.mp (g2 r hr)).1
    have hle := hpre.length_le
    rw [List.prefix_iff_eq_take.mp hpre, hn']
    rw [hn', List.length_map, List.length_append, List.length_map, List.length_range] at hle
    refine ⟨(callsOf r (threadIn (history t.socket (processLog k (F.state m).log)))).length -
      (F.arrived k t.socket ls.length).length, by omega, ?_⟩
    rw [← List.map_take, List.take_append, List.take_of_length_le (by omega), ← List.map_take, List.take_range]
    rw [Nat.min_eq_left (by omega)]
  · intro m hm
    obtain ⟨c1, -⟩ := e5 m hm
    exact ⟨E.queued, E.upTo m, E.state m, E.run m, c1.symm⟩

/-- C102. So, wherever a system has got to, if there is a listening thread at which nothing went wrong so far (it cannot
panic, none of its system calls failed): whatever messages the applications have for it, one after the other without
end, from any processes and sockets, it can be that all of them are sent and delivered to it in this order, and nothing
else is, and that all of them are handed to all its receivers. -/
theorem C102_stream (net : Nat → Net) (ls : List FLabel) (f : Fleet) (h : Fleet.init.run net ls = some f)
    (k : Nat) (a : Machine) (hk : f.machines[k]? = some a) (hsize : 1 ≤ a.pool.threads)
    (t : PThread) (ht : t ∈ a.threads) (u : RMember) (hu : a.pool.members[t.member]? = some u) (hp : NoPanics u.listener)
    (hs : ∀ y, .proc k (.work (.io t.member y)) ∈ ls → y = .pollEvent ∨ y = .recv ∨ y = .pollTimeout)
    (process sender : Nat → Nat) (address : Nat → Address) (packet : Nat → Packet) (source : Nat → SocketAddr)
    (hsend : ∀ i, ∃ b x, f.machines[process i]? = some b ∧ b.senders[sender i]? = some x ∧ x.address = source i)
    (hr : ∀ i, (net k).reaches t.address (address i).sock = true) :
    ∃ (F : FleetLife net) (sent : Nat → Nat), F.upTo ls.length = ls ∧ F.state ls.length = f ∧
      (∀ i, ls.length ≤ sent i ∧ sent i < sent (i + 1) ∧
        F.label (sent i) = some (.proc (process i) (.object (.send (sender i) (address i) (packet i))))) ∧
      (∀ m, ls.length ≤ m → ∃ i, F.arrived k t.socket m =
        F.arrived k t.socket ls.length ++ (List.range i).map fun i => ⟨(packet i).bytes, source i⟩) ∧
      ∀ i, ∃ m, sent i < m ∧ ∀ r, r < u.listener.receivers.length → ∃ n, i < n ∧
        callsOf r (threadIn (history t.socket (processLog k (F.state m).log))) =
          (F.arrived k t.socket ls.length ++ (List.range n).map fun i => (⟨(packet i).bytes, source i⟩ : Datagram)).map
            (received u.listener.buffersize) := by
  obtain ⟨F, sent, h1, h2, h3, h4, h5, -⟩ := fleet_stream net ls f h k a hk hsize t ht u hu hp hs process sender address
    packet source hsend hr
  exact ⟨F, sent, h1, h2, h3, h4, h5⟩

/-- C102. If that thread forwards to communities that do not panic, and the messages are for its communities: it can be
that every one of them is handed, whole, to the community it is for, in the order in which they were sent, after what
came before. -/
theorem C102_community (net : Nat → Net) (ls : List FLabel) (f : Fleet) (h : Fleet.init.run net ls = some f)
    (k : Nat) (a : Machine) (hk : f.machines[k]? = some a) (hsize : 1 ≤ a.pool.threads)
    (t : PThread) (ht : t ∈ a.threads) (u : RMember) (hu : a.pool.members[t.member]? = some u) 
    (cs : List Community) (size : Nat) (hnode : u.listener = node cs size)
    (hcs : ∀ c ∈ cs, ∀ h d a, c.onReceive h d a ≠ .panic)
    (hs : ∀ y, .proc k (.work (.io t.member y)) ∈ ls → y = .pollEvent ∨ y = .recv ∨ y = .pollTimeout)
    (process sender : Nat → Nat) (address : Nat → Address) (packet : Nat → Packet) (source : Nat → SocketAddr)
    (hsend : ∀ i, ∃ b x, f.machines[process i]? = some b ∧ b.senders[sender i]? = some x ∧ x.address = source i)
    (hr : ∀ i, (net k).reaches t.address (address i).sock = true)
    (mid : Nat → FixedBytes 20) (ty : Nat → UInt8) (hh : ∀ i, HasHeader (packet i) (mid i).1 (ty i))
    (hty : ∀ i, reserved (ty i) = false) (hfit : ∀ i, (packet i).bytes.length ≤ size)
    (c : Nat → Community) (hc : ∀ i, lastWith (mid i).1 cs = some (c i)) :
    ∃ (F : FleetLife net) (sent : Nat → Nat), F.upTo ls.length = ls ∧ F.state ls.length = f ∧
      (∀ i, ls.length ≤ sent i ∧ sent i < sent (i + 1) ∧
        F.label (sent i) = some (.proc (process i) (.object (.send (sender i) (address i) (packet i))))) ∧
      (∀ m, ls.length ≤ m → ∃ i, F.arrived k t.socket m =
        F.arrived k t.socket ls.length ++ (List.range i).map fun i => ⟨(packet i).bytes, source i⟩) ∧
      ∀ i, ∃ m n, sent i < m ∧ i < n ∧
        u.listener.communityCalls (threadIn (history t.socket (processLog k (F.state m).log))) =
          callsFor cs ((F.arrived k t.socket ls.length).map (received size)) ++
            (List.range n).map fun i => ⟨(c i).id, Header.pyIpv8Header (mid i) (ty i), ⟨packet i, 0⟩, ⟨source i⟩⟩ := by
  have hp : NoPanics u.listener := by rw [hnode]; exact C52_no_panics cs size hcs
  obtain ⟨F, sent, h1, h2, h3, h4, h5, h6⟩ := fleet_stream net ls f h k a hk hsize t ht u hu hp hs process sender address
    packet source hsend hr
  refine ⟨F, sent, h1, h2, h3, h4, fun i => ?_⟩
  obtain ⟨m, g1, g2⟩ := h5 i
  obtain ⟨n, g3, g4⟩ := g2 0 (by rw [hnode]; exact Nat.zero_lt_one)
  refine ⟨m, n, g1, g3, ?_⟩
  obtain ⟨queued, xs, s, g5, g6⟩ := h6 m (by have := (h3 i).1; omega)
  have ho := (C43_always _ _ _ _ g5).2
  rw [g6, hnode] at ho
  rw [hnode] at g4 ⊢
  rw [communityCalls_node cs size _ (fun r hr => ho r (by simpa [node] using hr)), g4]
  simp only [callsFor, List.map_append, List.flatMap_append, List.map_map]
  congr 1
  have one : ∀ i, ((registered cs).forwardMessage (received size ⟨(packet i).bytes, source i⟩).1
      (received size ⟨(packet i).bytes, source i⟩).2).2 =
      [⟨(c i).id, Header.pyIpv8Header (mid i) (ty i), ⟨packet i, 0⟩, ⟨source i⟩⟩] := by
    intro i
    simp only [received, List.take_of_length_le (hfit i)]
    rw [C40 cs ⟨(packet i).bytes⟩ ⟨source i⟩ (mid i) (ty i) (hh i) (c i) (hc i) (hty i)]
  rw [List.flatMap_map]
  have : ∀ l : List Nat, l.flatMap (fun i => ((registered cs).forwardMessage (received size ⟨(packet i).bytes, source i⟩).1
      (received size ⟨(packet i).bytes, source i⟩).2).2) =
      l.map fun i => ⟨(c i).id, Header.pyIpv8Header (mid i) (ty i), ⟨packet i, 0⟩, ⟨source i⟩⟩ := by
    intro l
    induction l with
    | nil => rfl
    | cons x l ih => rw [List.flatMap_cons, ih, one]; rfl
  exact this _

/-! ## A concrete case -/

/-- Two processes, a sender in one of them and a listening thread in the other; and two messages that a foreign host has
sent, one of which has arrived. -/
def streamSetup (r : Receiver) (size : Nat) (d : Datagram) : List FLabel :=
  [.boot 1, .boot 2, .proc 0 (.object (.newSender ⟨.v4 2 2 2 2 2⟩ (.v4 2 2 2 2 2))),
   .proc 1 (.object (.newReceiver ⟨.v4 0 0 0 0 9⟩ (.v4 0 0 0 0 9))),
   .proc 1 (.object (.addReceiver 0 r)),
   .proc 1 (.startReceiver 0 { Config.default with buffersize := size }),
   .foreign (.v4 0 0 0 0 9) d, .foreign (.v4 0 0 0 0 9) d, .deliver 1 1]

/-- The state then. -/
def streamState (r : Receiver) (size : Nat) (d : Datagram) : Fleet where
  machines :=
    [⟨1, [⟨0, .v4 2 2 2 2 2⟩], [], [], [], ⟨1, [], []⟩, [(0, .bind .sender (.v4 2 2 2 2 2))]⟩,
     ⟨1, [], [], [], [⟨0, .v4 0 0 0 0 9, 0⟩], ⟨2, [⟨⟨[r], size⟩, [d], true, List.replicate size 0, .polling, []⟩], []⟩,
      [(0, .bind .receiver (.v4 0 0 0 0 9)), (0, .register r), (0, .start size), (0, .arrive d)]⟩]
  air := [(.v4 0 0 0 0 9, d)]
  log := [.at 0 0 (.bind .sender (.v4 2 2 2 2 2)), .at 1 0 (.bind .receiver (.v4 0 0 0 0 9)), .at 1 0 (.register r),
    .at 1 0 (.start size), .foreign (.v4 0 0 0 0 9) d, .foreign (.v4 0 0 0 0 9) d, .at 1 0 (.arrive d)]

theorem stream_run (r : Receiver) (size : Nat) (d : Datagram) :
    Fleet.init.run (fun _ => plainNet) (streamSetup r size d) = some (streamState r size d) := by
  rfl

/-- From there, whatever the first process has to say to the second, it can be that it all gets through. -/
example (r : Receiver) (h : ∀ p a, r.mayPanic p a = false) (size : Nat) (d : Datagram) (packet : Nat → Packet) :
    ∃ (F : FleetLife fun _ => plainNet) (sent : Nat → Nat), F.upTo 9 = streamSetup r size d ∧
      (∀ i, F.label (sent i) = some (.proc 0 (.object (.send 0 ⟨.v4 0 0 0 0 9⟩ (packet i))))) ∧
      ∀ i, ∃ m n, sent i < m ∧ i < n ∧
        callsOf 0 (threadIn (history 0 (processLog 1 (F.state m).log))) =
          received size d :: (List.range n).map fun i => (⟨(packet i).bytes.take size⟩, ⟨.v4 2 2 2 2 2⟩) := by
  obtain ⟨F, sent, g1, g2, g3, g4, g5⟩ := C102_stream (fun _ => plainNet) _ _ (stream_run r size d) 1 _ rfl (show 1 ≤ 2 by omega)
    ⟨0, .v4 0 0 0 0 9, 0⟩ (List.mem_singleton.mpr rfl) _ rfl (by simpa [NoPanics] using h) (by simp [streamSetup])
    (fun _ => 0) (fun _ => 0) (fun _ => ⟨.v4 0 0 0 0 9⟩) packet (fun _ => .v4 2 2 2 2 2) (fun _ => ⟨_, _, rfl, rfl, rfl⟩)
    (fun _ => rfl)
  refine ⟨F, sent, g1, fun i => (g3 i).2.2, fun i => ?_⟩
  obtain ⟨m, c1, c2⟩ := g5 i
  obtain ⟨n, c3, c4⟩ := c2 0 (by simp)
  refine ⟨m, n, c1, c3, ?_⟩
  rw [c4]
  unfold FleetLife.arrived
  have : F.state 9 = streamState r size d := g2
  rw [show (streamSetup r size d).length = 9 from rfl, this, show arrivedIn (history 0 (processLog 1 (streamState r size d).log)) =
    [d] from rfl]
  simp [received, Function.comp_def]

/-- The same for a node with two communities, and messages for the second one. -/
example (d : Datagram) :
    ∃ (F : FleetLife fun _ => plainNet) (sent : Nat → Nat),
      F.upTo 9 = streamSetup (registryReceiver (registered exampleNode)) 2048 d ∧
      (∀ i, F.label (sent i) = some (.proc 0 (.object (.send 0 ⟨.v4 0 0 0 0 9⟩ examplePacket)))) ∧
      ∀ i, ∃ m n, sent i < m ∧ i < n ∧
        (node exampleNode 2048).communityCalls (threadIn (history 0 (processLog 1 (F.state m).log))) =
          callsFor exampleNode [received 2048 d] ++
            List.replicate n ⟨2, Header.pyIpv8Header (FixedBytes.replicate 20 8) 246, ⟨examplePacket, 0⟩, ⟨.v4 2 2 2 2 2⟩⟩ := by
  obtain ⟨c, hc, hid⟩ : ∃ c, lastWith (FixedBytes.replicate 20 8).1 exampleNode = some c ∧ c.id = 2 :=
    Option.map_eq_some_iff.mp (show (lastWith (FixedBytes.replicate 20 8).1 exampleNode).map (·.id) = some 2 by decide +kernel)
  obtain ⟨F, sent, g1, g2, g3, g4, g5⟩ := C102_community (fun _ => plainNet) _ _
    (stream_run (registryReceiver (registered exampleNode)) 2048 d) 1 _ rfl (show 1 ≤ 2 by omega)
    ⟨0, .v4 0 0 0 0 9, 0⟩ (List.mem_singleton.mpr rfl) _ rfl exampleNode 2048 rfl (by
      intro c hc h d a
      simp only [exampleNode, List.mem_cons, List.not_mem_nil, or_false] at hc
      rcases hc with rfl | rfl <;> simp [exampleCommunity])
    (by simp [streamSetup])
    (fun _ => 0) (fun _ => 0) (fun _ => ⟨.v4 0 0 0 0 9⟩) (fun _ => examplePacket) (fun _ => .v4 2 2 2 2 2)
    (fun _ => ⟨_, _, rfl, rfl, rfl⟩)
    (fun _ => rfl) (fun _ => FixedBytes.replicate 20 8) (fun _ => 246)
    (fun _ => ⟨rfl, [0, 0, 0, 0, 0, 0, 0, 3], by decide⟩) (fun _ => by decide) (fun _ => by decide) (fun _ => c) (fun _ => hc)
  refine ⟨F, sent, g1, fun i => (g3 i).2.2, fun i => ?_⟩
  obtain ⟨m, n, c1, c2, c3⟩ := g5 i
  refine ⟨m, n, c1, c2, ?_⟩
  refine c3.trans ?_
  unfold FleetLife.arrived
  have : F.state 9 = streamState (registryReceiver (registered exampleNode)) 2048 d := g2
  rw [show (streamSetup (registryReceiver (registered exampleNode)) 2048 d).length = 9 from rfl, this,
    show arrivedIn (history 0 (processLog 1 (streamState (registryReceiver (registered exampleNode)) 2048 d).log)) = [d] from rfl, hid]
  rw [List.map_const', List.length_range]
  rfl

/-! ## Cases for the theorems above -/

/-! ## Cases for the theorems above -/

/-- `C102`: from the state of `stream_run`, against an opponent that does nothing. -/
example (r : Receiver) (size : Nat) (d : Datagram) :
    ∃ (F : FleetLife fun _ => plainNet) (turn : Nat → Nat), F.upTo 9 = streamSetup r size d ∧ F.Opposed (fun _ => []) turn := by
  obtain ⟨F, turn, _, h1, _, h2, _⟩ := C102 _ (fun _ => []) _ _ (stream_run r size d)
  exact ⟨F, turn, h1, h2⟩

/-- `C102_rest`: from the state of `stream_run`. -/
example (r : Receiver) (size : Nat) (d : Datagram) := C102_rest _ _ _ (stream_run r size d)

end Ipv8
