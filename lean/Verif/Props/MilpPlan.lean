import Verif.Spec.MilpPlan
import Verif.Props.MilpPath

/-!
# Plans as solutions of the linear model (C59), loads along the path (C58), distinct positions (C60)
-/

set_option autoImplicit false

namespace Jinete

namespace Milp

variable {P : Milp} {a : Assignment}

theorem request_eq (hv : P.vehicles ≠ []) {i : Nat} (hi : i < 2 * P.n + 2) : P.request i = P.demand i := by
  unfold request
  rcases node_cases hi with rfl | rfl | ⟨t, ht, rfl⟩ | ⟨t, ht, rfl⟩
  · rw [if_pos rfl, demand_origin]
  · rw [if_neg (by omega), if_neg (by omega), demand_destination hv]
    have e : 2 * P.n + 1 - P.n - 1 = P.trips.length := by simp only [n]; omega
    rw [e]; simp
  · have ht' : t < P.trips.length := ht
    rw [if_neg (by omega), if_pos (by omega), demand_pickup hv ht, Nat.add_sub_cancel]
    simp [ht']
  · have ht' : t < P.trips.length := ht
    rw [if_neg (by omega), if_neg (by omega), demand_delivery hv ht]
    have e : P.n + (t + 1) - P.n - 1 = t := by omega
    rw [e]; simp [ht']

/-- The passengers on board after any node of the path of a vehicle fit into it. -/
theorem C58_passengers_fit_partial (hv : P.vehicles ≠ []) (h : P.solves a = true) {k : Nat} (hk : k < P.m)
    {p q r : List Nat} {i : Nat} (hp : P.DepotPath a k p) (hsplit : p = q ++ i :: r) :
    ((q ++ [i]).map P.request).sum ≤ (P.vehicles[k]).capacity := by
  have hs := (solves_iff a).1 h
  have hl := P.len_eq hv
  have key : ∀ (q : List Nat) (b i : Nat) (r : List Nat), (b :: q ++ i :: r).IsChain (fun i j => P.Uses a k i j) →
      ((q ++ [i]).map P.request).sum + a.w k b ≤ a.w k i := by
    intro q
    induction q with
    | nil =>
      intro b i r hc
      simp only [List.cons_append, List.nil_append, List.isChain_cons_cons] at hc
      have := hs.carry hv hk hc.1
      rw [← request_eq hv hc.1.2.1] at this
      simp only [List.nil_append, List.map_cons, List.map_nil, List.sum_cons, List.sum_nil, add_zero]
      linarith
    | cons c q ih =>
      intro b i r hc
      simp only [List.cons_append, List.isChain_cons_cons] at hc
      have h1 := hs.carry hv hk hc.1
      rw [← request_eq hv hc.1.2.1] at h1
      have h2 := ih c i r (by simpa using hc.2)
      simp only [List.cons_append, List.map_cons, List.sum_cons]
      linarith
  have hcap : ∀ j < 2 * P.n + 2, a.w k j ≤ (P.vehicles[k]).capacity := by
    intro j hj
    have := (hs.loads k hk j (by omega)).2
    rw [vehCapacity_eq hk] at this
    have h0 : min 0 (P.demand j) ≤ 0 := min_le_left _ _
    linarith
  have hw0 := hs.w_nonneg k hk 0 (by omega)
  have hr0 : P.request 0 = 0 := by simp [request]
  subst hsplit
  have hf := hp.first
  have hc := hp.arcs
  cases q with
  | nil =>
    simp only [List.nil_append, List.head?_cons, Option.some.injEq] at hf
    subst hf
    simp only [List.nil_append, List.map_cons, List.map_nil, List.sum_cons, List.sum_nil, add_zero, hr0]
    linarith [hcap 0 (by omega)]
  | cons b q =>
    simp only [List.cons_append, List.head?_cons, Option.some.injEq] at hf
    subst hf
    have hk2 := key q 0 i r hc
    have hi : i < 2 * P.n + 2 := by
      have : ∃ y, P.Uses a k y i := by
        obtain ⟨y, _, hy⟩ := chain_prev hc (y := i) (z := 0) rfl (by simp) (by
          rintro rfl
          have := hp.nodup
          simp [List.nodup_cons] at this)
        exact ⟨y, hy⟩
      obtain ⟨y, hy⟩ := this
      exact hy.2.1
    simp only [List.cons_append, List.map_cons, List.sum_cons, hr0, zero_add]
    linarith [hcap i hi]

example : ((([0, 1, 3] ++ [2]).map demo.request).sum ≤ 2) := by
  refine C58_passengers_fit_partial (P := demo) (a := demoOne) (k := 0) (p := [0, 1, 3, 2, 4, 5]) (r := [4, 5])
    (by decide) demo_solved.1 (by decide) ⟨rfl, rfl, by decide, ?_⟩ rfl
  simp only [List.isChain_cons_cons, List.isChain_singleton, and_true]
  refine ⟨?_, ?_, ?_, ?_, ?_⟩ <;> exact ⟨by decide, by decide, by decide +kernel⟩

/-- If all nodes have different positions, loading takes time and no vehicle uses the loop at the origin depot, the
objective is the distance travelled. -/
theorem C60_distinct_positions_partial (hv : P.vehicles ≠ []) (hc : P.Closes) (hm : ∀ p q, 0 ≤ P.metric p q)
    (hd : ∀ t ∈ P.trips, 0 < t.origin.duration) (h : P.solves a = true)
    (h0 : ∀ k < P.m, ¬ P.Uses a k 0 0) (hp : P.positions.Nodup) : P.objective a = P.travelled a := by
  have hl := P.len_eq hv
  refine C60_objective_is_distance_partial hv h fun k hk i j hu e => ?_
  have hij : i = j := by
    have hi : i < P.positions.length := by have := hu.1; change i < P.len; omega
    have hj : j < P.positions.length := by have := hu.2.1; change j < P.len; omega
    unfold pos at e
    rw [List.getD_eq_getElem?_getD, List.getD_eq_getElem?_getD, List.getElem?_eq_getElem hi, List.getElem?_eq_getElem hj] at e
    exact (List.Nodup.getElem_inj_iff hp).1 (by simpa using e)
  subst hij
  obtain ⟨p, hpath, hall⟩ := C66_one_path_partial hv hc hm hd h hk (h0 k hk)
  rcases hall i i hu with h1 | h1
  · exact no_loop_in_path hpath.nodup i h1
  · simp only [Prod.mk.injEq] at h1
    omega

/-! ## C59 -/

/-- If the job can be served, the constraints can be satisfied. -/
def Admits (P : Milp) : Prop := ∀ π : Plan, π.Serves P → ∃ a, P.solves a = true

/-- A single vehicle that is too small for a single trip makes the model unsatisfiable. -/
theorem C59_small_vehicle_unsatisfiable (hv : P.vehicles ≠ []) {k t : Nat} (hk : k < P.m) (ht : t < P.n)
    (h : (P.vehicles[k]).capacity < (P.trips[t]).capacity) : ∀ a, P.solves a = false := by
  intro a
  by_contra hs
  have hs := (solves_iff a).1 (by simpa using hs)
  have hl := P.len_eq hv
  have hb := hs.loads k hk (t + 1) (by omega)
  rw [demand_pickup hv ht, vehCapacity_eq hk] at hb
  have h1 : (P.trips[t]).capacity ≤ a.w k (t + 1) := le_trans (le_max_right _ _) hb.1
  have h2 : min 0 (P.trips[t]).capacity ≤ 0 := min_le_left _ _
  linarith [hb.2]

/-- A small and a large vehicle, one trip for the large one. -/
def mixedFleet : Milp where
  vehicles := [⟨⟨[0], 0, .inf, 0⟩, none, 1, .fin 100⟩, ⟨⟨[0], 0, .inf, 0⟩, none, 3, .fin 100⟩]
  trips := [⟨⟨[1], 0, .fin 50, 0⟩, ⟨[2], 0, .fin 60, 0⟩, 3, 0, .fin 30⟩]
  metric := lineMetric

/-- The large vehicle serves the trip. -/
def mixedPlan : Plan where
  stops k := if k = 1 then [1, 2] else []
  time i := if i = 1 then 1 else 2
  start _ := 0
  finish k := if k = 1 then 4 else 0

/-- All ways to split a list at an element. -/
def splits : List Nat → List (List Nat × Nat × List Nat)
  | [] => []
  | b :: l => ([], b, l) :: (splits l).map fun s => (b :: s.1, s.2.1, s.2.2)

theorem mem_splits {l q r : List Nat} {i : Nat} (h : l = q ++ i :: r) : (q, i, r) ∈ splits l := by
  induction q generalizing l with
  | nil => subst h; simp [splits]
  | cons b q ih =>
    subst h
    simp only [List.cons_append, splits, List.mem_cons, List.mem_map]
    exact .inr ⟨(q, i, r), ih rfl, rfl⟩

theorem mixedPlan_serves : mixedPlan.Serves mixedFleet := by
  refine ⟨?_, by decide, by decide, ?_, by decide +kernel, by decide +kernel, by decide +kernel, by decide +kernel,
    ?_, by decide +kernel, ?_, by decide +kernel⟩
  · intro t ht
    have ht' : t = 0 := by have : t < 1 := ht; omega
    subst ht'
    exact ⟨1, by decide, by decide, by decide, by decide⟩
  · intro k hk t ht q r h
    have h1 := mem_splits h
    have hk' : k = 0 ∨ k = 1 := by have : k < 2 := hk; omega
    have ht' : t = 0 := by have : t < 1 := ht; omega
    subst ht'
    rcases hk' with rfl | rfl
    · simp [mixedPlan, splits] at h1
    · simp only [mixedPlan, splits, mixedFleet, n, if_true, List.map_cons, List.map_nil, List.mem_cons, Prod.mk.injEq,
        List.not_mem_nil, or_false, List.length_cons, List.length_nil] at h1
      rcases h1 with h1 | h1
      · omega
      · rw [h1.1]; simp
  · intro k hk q i r h
    have h1 := mem_splits h
    have hall : ∀ k, (hk : k < mixedFleet.m) → ∀ s ∈ splits (mixedPlan.path mixedFleet k),
        0 ≤ ((s.1 ++ [s.2.1]).map mixedFleet.request).sum ∧
        ((s.1 ++ [s.2.1]).map mixedFleet.request).sum ≤ (mixedFleet.vehicles[k]).capacity := by decide +kernel
    exact hall k hk _ h1
  · intro i
    simp only [mixedPlan]
    split <;> norm_num

/-- A job that a mixed fleet can serve has no solution in the model. -/
theorem C59_mixed_fleet_rejected : ¬ Admits mixedFleet := by
  intro h
  obtain ⟨a, ha⟩ := h mixedPlan mixedPlan_serves
  rw [C59_small_vehicle_unsatisfiable (P := mixedFleet) (k := 0) (t := 0) (by decide) (by decide) (by decide)
    (by decide +kernel) a] at ha
  exact absurd ha (by decide)

/-! ### From a plan to an assignment -/

/-- Load after node `i` of the list. -/
def loadUpTo (P : Milp) : List Nat → Nat → ℚ
  | [], _ => 0
  | b :: l, i => P.request b + if b = i then 0 else loadUpTo P l i

theorem loadUpTo_split {q r : List Nat} {i : Nat} (h : (q ++ i :: r).Nodup) :
    P.loadUpTo (q ++ i :: r) i = ((q ++ [i]).map P.request).sum := by
  induction q with
  | nil => simp [loadUpTo]
  | cons b q ih =>
    simp only [List.cons_append, List.nodup_cons] at h
    have hb : b ≠ i := by rintro rfl; exact h.1 (by simp)
    simp only [List.cons_append, loadUpTo, if_neg hb, List.map_cons, List.sum_cons]
    rw [ih h.2]

theorem zip_tail_split {l : List Nat} {i j : Nat} (h : (i, j) ∈ l.zip l.tail) : ∃ q r, l = q ++ i :: j :: r := by
  induction l with
  | nil => simp at h
  | cons b l ih =>
    cases l with
    | nil => simp at h
    | cons c l =>
      simp only [List.tail_cons, List.zip_cons_cons, List.mem_cons, Prod.mk.injEq] at h
      rcases h with ⟨rfl, rfl⟩ | h
      · exact ⟨[], l, rfl⟩
      · obtain ⟨q, r, e⟩ := ih h
        exact ⟨b :: q, r, by rw [e]; rfl⟩

theorem split_zip_tail (q r : List Nat) (i j : Nat) : (i, j) ∈ (q ++ i :: j :: r).zip (q ++ i :: j :: r).tail := by
  induction q with
  | nil => simp
  | cons b q ih =>
    cases q with
    | nil => simp
    | cons c q =>
      simp only [List.cons_append, List.tail_cons, List.zip_cons_cons, List.mem_cons] at ih ⊢
      exact .inr ih

theorem loadUpTo_step {l : List Nat} (hn : l.Nodup) {i j : Nat} (h : (i, j) ∈ l.zip l.tail) :
    P.loadUpTo l j = P.loadUpTo l i + P.request j := by
  obtain ⟨q, r, rfl⟩ := zip_tail_split h
  rw [loadUpTo_split hn]
  have e : q ++ i :: j :: r = (q ++ [i]) ++ j :: r := by simp
  rw [e] at hn ⊢
  rw [loadUpTo_split hn]
  simp [add_assoc]

/-- The successor in a list without duplicates. -/
theorem next_unique {l : List Nat} (hn : l.Nodup) {z : Nat} (hz : l.getLast? = some z) {i : Nat} (hi : i ∈ l) (hne : i ≠ z) :
    ∃! j, (i, j) ∈ l.zip l.tail := by
  obtain ⟨j, hj, _⟩ := mem_zip_tail (R := fun _ _ => True)
    (by clear hn hz hi hne; induction l with
      | nil => simp
      | cons b l ih => cases l <;> simp_all [List.isChain_cons_cons]) hz hi hne
  refine ⟨j, hj, fun j' hj' => ?_⟩
  obtain ⟨q, r, rfl⟩ := zip_tail_split hj
  obtain ⟨q', r', e⟩ := zip_tail_split hj'
  have hq : q = q' ∧ i :: j :: r = i :: j' :: r' := by
    clear hj hj' hz hi
    induction q generalizing q' with
    | nil =>
      cases q' with
      | nil => exact ⟨rfl, e⟩
      | cons b q' =>
        simp only [List.nil_append, List.cons_append, List.cons.injEq] at e
        simp only [List.nil_append, List.nodup_cons] at hn
        exact absurd (by rw [e.2]; simp) hn.1
    | cons b q ih =>
      simp only [List.cons_append, List.nodup_cons] at hn
      cases q' with
      | nil =>
        simp only [List.nil_append, List.cons_append, List.cons.injEq] at e
        exact absurd (by rw [e.1]; simp) hn.1
      | cons b' q' =>
        simp only [List.cons_append, List.cons.injEq] at e
        obtain ⟨e1, e2⟩ := ih hn.2 q' e.2
        exact ⟨by rw [e.1, e1], e2⟩
  have := hq.2
  simp only [List.cons.injEq, true_and] at this
  exact this.1.symm

theorem prev_unique {l : List Nat} (hn : l.Nodup) {z : Nat} (hz : l.head? = some z) {j : Nat} (hj : j ∈ l) (hne : j ≠ z) :
    ∃! i, (i, j) ∈ l.zip l.tail := by
  obtain ⟨q, r, rfl⟩ := List.append_of_mem hj
  have hq : q ≠ [] := by
    rintro rfl
    simp only [List.nil_append, List.head?_cons, Option.some.injEq] at hz
    exact hne hz
  obtain ⟨q', i, rfl⟩ : ∃ q' i, q = q' ++ [i] := ⟨q.dropLast, q.getLast hq, (List.dropLast_append_getLast hq).symm⟩
  have e0 : (q' ++ [i]) ++ j :: r = q' ++ i :: j :: r := by simp
  rw [e0] at hn ⊢
  refine ⟨i, split_zip_tail q' r i j, fun i' hi' => ?_⟩
  obtain ⟨s, r', e⟩ := zip_tail_split hi'
  clear hz hj hne hi' e0 hq
  induction q' generalizing s with
  | nil =>
    simp only [List.nil_append] at e hn
    cases s with
    | nil => simp only [List.nil_append, List.cons.injEq] at e; exact e.1.symm
    | cons b s =>
      simp only [List.cons_append, List.cons.injEq] at e
      cases s with
      | nil =>
        simp only [List.nil_append, List.cons.injEq] at e
        have := e.2.2
        rw [e.2.1] at hn
        simp only [List.nodup_cons] at hn
        exact absurd (by rw [e.2.2]; simp [e.2.1]) hn.2.1
      | cons c s =>
        simp only [List.cons_append, List.cons.injEq] at e
        simp only [List.nodup_cons] at hn
        exact absurd (by rw [e.2.2]; simp) hn.2.1
  | cons b q' ih =>
    simp only [List.cons_append, List.nodup_cons] at hn
    cases s with
    | nil =>
      simp only [List.nil_append, List.cons_append, List.cons.injEq] at e
      cases q' with
      | nil =>
        simp only [List.nil_append, List.cons.injEq] at e
        rw [e.2.1] at hn
        simp at hn
      | cons c q' =>
        simp only [List.cons_append, List.cons.injEq] at e
        rw [List.cons_append, e.2.1] at hn
        simp at hn
    | cons c s =>
      simp only [List.cons_append, List.cons.injEq] at e
      exact ih hn.2 s e.2

end Milp

namespace Plan

open Milp

variable {π : Plan} {P : Milp}

/-- The values of the variables for a plan. -/
def toAssignment (π : Plan) (P : Milp) : Assignment where
  x k i j := if (i, j) ∈ (π.path P k).zip (π.path P k).tail then 1 else 0
  u k i := π.at_ P k i
  w k i := if i ∈ π.path P k then P.loadUpTo (π.path P k) i else max 0 (P.request i)

theorem Serves.path_nodup (h : π.Serves P) {k : Nat} (hk : k < P.m) : (π.path P k).Nodup := by
  unfold path
  rw [List.nodup_cons, List.nodup_append]
  refine ⟨fun hm => ?_, h.nodup k hk, List.nodup_singleton _, fun b hb c hc e => ?_⟩
  · rcases List.mem_append.1 hm with hm | hm
    · have := h.nodes k hk 0 hm; omega
    · simp only [List.mem_singleton] at hm; omega
  · have := h.nodes k hk b hb
    rw [List.mem_singleton] at hc
    omega

theorem path_head (k : Nat) : (π.path P k).head? = some 0 := rfl

theorem path_last (k : Nat) : (π.path P k).getLast? = some (2 * P.n + 1) := by
  unfold path
  rw [← List.cons_append, List.getLast?_append]
  rfl

theorem mem_path {k i : Nat} (h1 : 1 ≤ i) (h2 : i ≤ 2 * P.n) : i ∈ π.path P k ↔ i ∈ π.stops k := by
  unfold path
  simp only [List.mem_cons, List.mem_append, List.not_mem_nil, or_false]
  constructor
  · rintro (h | h | h)
    · omega
    · exact h
    · omega
  · exact fun h => .inr (.inl h)

theorem Serves.path_lt (h : π.Serves P) {k : Nat} (hk : k < P.m) {i : Nat} (hi : i ∈ π.path P k) : i < 2 * P.n + 2 := by
  unfold path at hi
  simp only [List.mem_cons, List.mem_append, List.not_mem_nil, or_false] at hi
  rcases hi with h' | h' | h'
  · omega
  · have := h.nodes k hk i h'; omega
  · omega

theorem x_bin (k i j : Nat) : (π.toAssignment P).x k i j = 0 ∨ (π.toAssignment P).x k i j = 1 := by
  simp only [toAssignment]
  split
  · exact .inr rfl
  · exact .inl rfl

theorem x_one {k i j : Nat} : (π.toAssignment P).x k i j = 1 ↔ (i, j) ∈ (π.path P k).zip (π.path P k).tail := by
  simp only [toAssignment]
  split <;> simp_all

theorem zip_mem {l : List Nat} {i j : Nat} (h : (i, j) ∈ l.zip l.tail) : i ∈ l ∧ j ∈ l :=
  ⟨(List.of_mem_zip h).1, List.mem_of_mem_tail (List.of_mem_zip h).2⟩

theorem Serves.out_sum (h : π.Serves P) {k : Nat} (hk : k < P.m) {i : Nat} (hi : i ≠ 2 * P.n + 1) :
    ∑ j ∈ Finset.range (2 * P.n + 2), (π.toAssignment P).x k i j = if i ∈ π.path P k then 1 else 0 := by
  split
  · rename_i hm
    rw [sum_eq_one_iff fun j _ => x_bin k i j]
    obtain ⟨j, hj, hu⟩ := next_unique (h.path_nodup hk) (path_last k) hm hi
    refine ⟨j, ⟨Finset.mem_range.2 (h.path_lt hk (zip_mem hj).2), x_one.2 hj⟩, fun j' hj' => hu j' (x_one.1 hj'.2)⟩
  · rename_i hm
    refine Finset.sum_eq_zero fun j _ => (x_bin k i j).resolve_right fun hx => hm (zip_mem (x_one.1 hx)).1

theorem Serves.in_sum (h : π.Serves P) {k : Nat} (hk : k < P.m) {i : Nat} (hi : i ≠ 0) :
    ∑ j ∈ Finset.range (2 * P.n + 2), (π.toAssignment P).x k j i = if i ∈ π.path P k then 1 else 0 := by
  split
  · rename_i hm
    rw [sum_eq_one_iff fun j _ => x_bin k j i]
    obtain ⟨j, hj, hu⟩ := prev_unique (h.path_nodup hk) (path_head k) hm hi
    refine ⟨j, ⟨Finset.mem_range.2 (h.path_lt hk (zip_mem hj).1), x_one.2 hj⟩, fun j' hj' => hu j' (x_one.1 hj'.2)⟩
  · rename_i hm
    refine Finset.sum_eq_zero fun j _ => (x_bin k j i).resolve_right fun hx => hm (zip_mem (x_one.1 hx)).2

/-- Loads after the nodes of the path, and before them. -/
theorem Serves.load_at (h : π.Serves P) {k : Nat} (hk : k < P.m) {i : Nat} (hi : i ∈ π.path P k) :
    0 ≤ P.loadUpTo (π.path P k) i ∧ P.loadUpTo (π.path P k) i ≤ (P.vehicles[k]).capacity ∧
    0 ≤ P.loadUpTo (π.path P k) i - P.request i ∧
    P.loadUpTo (π.path P k) i - P.request i ≤ (P.vehicles[k]).capacity := by
  have hn := h.path_nodup hk
  obtain ⟨q, r, e⟩ := List.append_of_mem hi
  have h1 := h.load k hk q i r e
  have hsum : P.loadUpTo (π.path P k) i = ((q ++ [i]).map P.request).sum := by
    rw [e] at hn ⊢; exact loadUpTo_split hn
  have hbefore : ((q ++ [i]).map P.request).sum - P.request i = (q.map P.request).sum := by simp
  rw [hsum, hbefore]
  refine ⟨h1.1, h1.2, ?_⟩
  by_cases hq : q = []
  · subst hq
    simp only [List.map_nil, List.sum_nil]
    refine ⟨le_refl _, ?_⟩
    have h0 := h.load k hk [] 0 (π.stops k ++ [2 * P.n + 1]) rfl
    simp only [List.nil_append, List.map_cons, List.map_nil, List.sum_cons, List.sum_nil, add_zero] at h0
    exact le_trans h0.1 h0.2
  · obtain ⟨q', b, rfl⟩ : ∃ q' b, q = q' ++ [b] := ⟨q.dropLast, q.getLast hq, (List.dropLast_append_getLast hq).symm⟩
    exact h.load k hk q' b (i :: r) (by rw [e]; simp)

end Plan

namespace Milp

open Plan

variable {P : Milp}

/-- If every vehicle can carry every trip, every plan gives a solution, namely the one with the arcs and times of the
plan. Missing from the full property: vehicles that are too small for some trip, trips that end where they start, and
destinations that take less time than the origins, for which the model asks too much. -/
theorem C59_admits_partial (hv : P.vehicles ≠ []) (hcap : ∀ v ∈ P.vehicles, ∀ t ∈ P.trips, 0 ≤ t.capacity ∧ t.capacity ≤ v.capacity)
    (hne : ∀ t ∈ P.trips, t.origin.position ≠ t.destination.position)
    (hd : ∀ t ∈ P.trips, t.origin.duration ≤ t.destination.duration) (π : Plan) (h : π.Serves P) :
    P.solves (π.toAssignment P) = true := by
  have hl := P.len_eq hv
  rw [solves_iff]
  have hat : ∀ k i, 1 ≤ i → i ≤ 2 * P.n → π.at_ P k i = π.time i := by
    intro k i h1 h2
    unfold at_
    rw [if_neg (by omega), if_neg (by omega)]
  have hat0 : ∀ k, π.at_ P k 0 = π.start k := fun k => by simp [at_]
  have hatd : ∀ k, π.at_ P k (2 * P.n + 1) = π.finish k := fun k => by simp [at_]
  -- windows
  have hwin : ∀ k < P.m, ∀ i < P.len, ∀ e l, P.window i = some (e, l) → e ≤ π.at_ P k i ∧ Bound.leQ (π.at_ P k i) l = true := by
    intro k hk i hi e l hw
    have hdep := h.depots k hk
    rcases node_cases (P := P) (i := i) (by omega) with rfl | rfl | ⟨t, ht, rfl⟩ | ⟨t, ht, rfl⟩
    · rw [window_origin] at hw; cases hw
      rw [hat0]; exact ⟨hdep.1, by simpa [Bound.leQ] using hdep.2.1⟩
    · rw [window_destination hv] at hw; cases hw
      rw [hatd]; exact ⟨hdep.2.2.1, by simpa [Bound.leQ] using hdep.2.2.2⟩
    · rw [window_pickup hv ht] at hw; cases hw
      rw [hat k _ (by omega) (by omega)]; exact h.pickup_window t ht
    · rw [window_delivery hv ht (hne _ (List.getElem_mem ht))] at hw; cases hw
      rw [hat k _ (by omega) (by omega)]; exact h.delivery_window t ht
  -- loading times
  have hstay : ∀ i < 2 * P.n + 2, P.loadTime i ≤ P.stay i := by
    intro i hi
    unfold stay
    rcases node_cases hi with rfl | rfl | ⟨t, ht, rfl⟩ | ⟨t, ht, rfl⟩
    · rw [loadTime_origin, if_pos rfl]
    · rw [loadTime_destination hv, if_neg (by omega), if_neg (by omega)]
      have e : 2 * P.n + 1 - P.n - 1 = P.trips.length := by simp only [n]; omega
      rw [e]; simp
    · have ht' : t < P.trips.length := ht
      rw [loadTime_pickup hv ht, if_neg (by omega), if_pos (by omega), Nat.add_sub_cancel]
      simp [ht']
    · have ht' : t < P.trips.length := ht
      rw [loadTime_delivery hv ht, if_neg (by omega), if_neg (by omega)]
      have e : P.n + (t + 1) - P.n - 1 = t := by omega
      rw [e]
      simpa [ht'] using hd _ (List.getElem_mem ht')
  -- loads
  have hloads : ∀ k < P.m, ∀ i < P.len, max 0 (P.demand i) ≤ (π.toAssignment P).w k i ∧
      (π.toAssignment P).w k i ≤ P.vehCapacity k + min 0 (P.demand i) := by
    intro k hk i hi
    rw [vehCapacity_eq hk, ← request_eq hv (by omega)]
    simp only [toAssignment]
    split
    · rename_i hm
      obtain ⟨h1, h2, h3, h4⟩ := h.load_at hk hm
      refine ⟨max_le h1 (by linarith), ?_⟩
      rw [← sub_le_iff_le_add', le_min_iff]
      exact ⟨by linarith, by linarith⟩
    · rename_i hm
      refine ⟨le_refl _, ?_⟩
      rw [request_eq hv (by omega)]
      rcases node_cases (P := P) (i := i) (by omega) with rfl | rfl | ⟨t, ht, rfl⟩ | ⟨t, ht, rfl⟩
      · exact absurd (List.mem_cons_self) hm
      · exact absurd (List.mem_of_getLast? (path_last k)) hm
      · have hc := hcap _ (List.getElem_mem (show k < P.vehicles.length from hk)) _ (List.getElem_mem ht)
        rw [demand_pickup hv ht, max_eq_right hc.1, min_eq_left hc.1]
        linarith [hc.2]
      · have hc := hcap _ (List.getElem_mem (show k < P.vehicles.length from hk)) _ (List.getElem_mem ht)
        rw [demand_delivery hv ht, max_eq_left (by linarith [hc.1]), min_eq_right (by linarith [hc.1])]
        linarith [hc.2]
  refine {
    bin := fun k _ i _ j _ => x_bin k i j
    u_nonneg := fun k hk i hi => ?_
    w_nonneg := fun k hk i hi => le_trans (le_max_left _ _) (hloads k hk i hi).1
    once := fun i h1 h2 => ?_
    same := fun i h1 h2 k hk => ?_
    leave := fun k hk => ?_
    flow := fun k hk i h1 h2 => ?_
    enter := fun k hk => ?_
    time := fun k hk i hi j hj => ?_
    load := fun k hk i hi j hj => ?_
    duration := fun k hk => ?_
    windows := hwin
    ride := fun k hk i h1 h2 => ?_
    loads := hloads }
  · change 0 ≤ π.at_ P k i
    have hdep := h.depots k hk
    unfold at_
    split
    · exact hdep.1
    · split
      · exact hdep.2.2.1
      · exact h.times i
  · rw [Finset.sum_comm, hl]
    obtain ⟨k, hk, hp, hd', ho⟩ := h.served (i - 1) (by omega)
    have ei : i - 1 + 1 = i := by omega
    rw [ei] at hp ho
    rw [Finset.sum_congr rfl fun k' hk' => h.out_sum (Finset.mem_range.1 hk') (i := i) (by omega)]
    rw [Finset.sum_eq_single k]
    · rw [if_pos ((mem_path h1 (by omega)).2 hp)]
    · intro k' hk' hkne
      rw [if_neg fun hm => (ho k' (Finset.mem_range.1 hk') hkne).1 ((mem_path h1 (by omega)).1 hm)]
    · intro hk'
      exact absurd (Finset.mem_range.2 hk) hk'
  · rw [hl, h.out_sum hk (by omega), h.out_sum hk (by omega)]
    obtain ⟨k', hk', hp, hd', ho⟩ := h.served (i - 1) (by omega)
    have ei : i - 1 + 1 = i := by omega
    rw [ei] at hp hd' ho
    by_cases e : k = k'
    · subst e
      rw [if_pos ((mem_path h1 (by omega)).2 hp), if_pos ((mem_path (by omega) (by omega)).2 hd')]
    · rw [if_neg fun hm => (ho k hk e).1 ((mem_path h1 (by omega)).1 hm),
        if_neg fun hm => (ho k hk e).2 ((mem_path (by omega) (by omega)).1 hm)]
  · rw [hl, h.out_sum hk (by omega), if_pos (show 0 ∈ π.path P k from List.mem_cons_self)]
  · rw [hl, h.in_sum hk (by omega), h.out_sum hk (by omega)]
  · have e : P.len - 1 = 2 * P.n + 1 := by omega
    rw [e, hl, h.in_sum hk (by omega), if_pos (List.mem_of_getLast? (path_last k))]
  · unfold timeConstraint
    cases hwi : P.window i with
    | none => rfl
    | some el =>
      obtain ⟨e, l⟩ := el
      cases l with
      | inf => rfl
      | fin l =>
        cases hwj : P.window j with
        | none => rfl
        | some el' =>
          obtain ⟨e', l'⟩ := el'
          simp only [decide_eq_true_eq]
          change π.at_ P k j ≥ π.at_ P k i + _ + _ - _
          rcases x_bin (π := π) (P := P) k i j with hx | hx
          · rw [hx]
            have h1 := (hwin k hk i hi _ _ hwi).2
            have h2 := (hwin k hk j hj _ _ hwj).1
            have h1' : π.at_ P k i ≤ l := by simpa [Bound.leQ] using h1
            have h3 := le_max_right 0 (l + P.loadTime i + P.travel i j - e')
            linarith
          · rw [hx]
            have h1 := h.advance k hk _ (x_one.1 hx)
            have h2 := hstay i (by omega)
            simp only at h1
            linarith
  · rcases x_bin (π := π) (P := P) k i j with hx | hx
    · rw [hx]
      have h1 := (hloads k hk i hi).2
      have h2 := le_trans (le_max_right _ _) (hloads k hk j hj).1
      linarith
    · have hx' := x_one.1 hx
      have hm := zip_mem hx'
      rw [hx]
      simp only [toAssignment]
      rw [if_pos hm.1, if_pos hm.2, loadUpTo_step (h.path_nodup hk) hx', request_eq hv (by omega)]
      linarith
  · have e : P.len - 1 = 2 * P.n + 1 := by omega
    rw [e, vehTimeout_eq hk]
    change Bound.leQ (π.at_ P k (2 * P.n + 1) - π.at_ P k 0) _ = true
    rw [hatd, hat0]
    exact h.duration k hk
  · obtain ⟨t, ht, rfl⟩ : ∃ t, t < P.n ∧ i = t + 1 := ⟨i - 1, by omega, by omega⟩
    have hr := h.ride t ht
    have hu : ∀ i, (π.toAssignment P).u k i = π.at_ P k i := fun _ => rfl
    rw [hu, hu, hat k _ (by omega) (by omega), hat k _ (by omega) (by omega), loadTime_pickup hv ht, rideLimit_pickup hv ht,
      Nat.add_comm (t + 1) P.n]
    refine ⟨?_, hr.1⟩
    unfold travel
    rw [pos_pickup hv ht, pos_delivery hv ht]
    linarith [hr.2]

/-- The same job with two large vehicles. -/
def largeFleet : Milp := { mixedFleet with
  vehicles := [⟨⟨[0], 0, .inf, 0⟩, none, 3, .fin 100⟩, ⟨⟨[0], 0, .inf, 0⟩, none, 3, .fin 100⟩] }

theorem mixedPlan_serves_large : mixedPlan.Serves largeFleet := by
  have h := mixedPlan_serves
  refine ⟨h.served, h.nodes, h.nodup, h.order, by decide +kernel, by decide +kernel, by decide +kernel, by decide +kernel,
    ?_, h.depots, h.times, by decide +kernel⟩
  intro k hk q i r hs
  have hall : ∀ k, (hk : k < largeFleet.m) → ∀ s ∈ splits (mixedPlan.path largeFleet k),
      0 ≤ ((s.1 ++ [s.2.1]).map largeFleet.request).sum ∧
      ((s.1 ++ [s.2.1]).map largeFleet.request).sum ≤ (largeFleet.vehicles[k]).capacity := by decide +kernel
  exact hall k hk _ (mem_splits hs)

example : largeFleet.solves (mixedPlan.toAssignment largeFleet) = true :=
  C59_admits_partial (by decide) (by decide +kernel) (by decide +kernel) (by decide +kernel) mixedPlan mixedPlan_serves_large

/-- One vehicle that ends elsewhere than it starts. -/
def farDepot : Milp where
  vehicles := [⟨⟨[0], 0, .inf, 0⟩, some ⟨[9], 0, .inf, 0⟩, 2, .fin 100⟩]
  trips := [⟨⟨[1], 0, .fin 50, 1⟩, ⟨[2], 0, .fin 60, 1⟩, 1, 0, .fin 30⟩]
  metric := lineMetric

def farSolution : Assignment := ofTables [(0, 0, 1), (0, 1, 2), (0, 2, 3)] [[0, 1, 3, 11]] [[0, 1, 0, 0]]

example : farDepot.objective farSolution = farDepot.travelled farSolution := by
  refine C60_distinct_positions_partial (by decide) ?_ (fun p q => abs_nonneg _) (by decide +kernel) (by decide +kernel) ?_
    (by decide +kernel)
  · intro t ht
    simp only [farDepot, List.mem_cons, List.not_mem_nil, or_false] at ht
    rcases ht with rfl; exact ⟨_, rfl⟩
  · rintro k hk ⟨_, _, h⟩
    have hk' : k = 0 := by have : k < 1 := hk; omega
    subst hk'
    revert h; decide +kernel

end Milp

end Jinete
