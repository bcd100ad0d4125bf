import Verif.Props.MilpRoutes
import Verif.Spec.Value

/-!
# Length of the routes of a solution (C78)
-/

set_option autoImplicit false

namespace Jinete

namespace Milp

variable {P : Milp} {a : Assignment}

theorem sum_map_ite {α : Type} (p : α → Prop) [DecidablePred p] (f : α → ℚ) (l : List α) :
    (l.map fun x => if p x then f x else 0).sum = ((l.filter fun x => decide (p x)).map f).sum := by
  induction l with
  | nil => rfl
  | cons x l ih =>
    by_cases h : p x
    · simp [h, ih]
    · simp [h, ih]

theorem sum_map_neg {α : Type} (f : α → ℚ) (l : List α) : (l.map fun x => -f x).sum = -(l.map f).sum := by
  induction l with
  | nil => simp
  | cons x l ih => simp only [List.map_cons, List.sum_cons, ih]; ring

/-- The legs of one vehicle, given all the arcs it uses. -/
theorem sum_arcs {L : List (Nat × Nat)} (hn : L.Nodup) (n : Nat) (hL : ∀ e ∈ L, e.1 < n ∧ e.2 < n) (x c : Nat → Nat → ℚ)
    (hx : ∀ i < n, ∀ j < n, x i j = if (i, j) ∈ L then 1 else 0) :
    (((List.range n).product (List.range n)).map fun e => x e.1 e.2 * c e.1 e.2).sum = (L.map fun e => c e.1 e.2).sum := by
  have h1 : (((List.range n).product (List.range n)).map fun e => x e.1 e.2 * c e.1 e.2) =
      ((List.range n).product (List.range n)).map fun e => if e ∈ L then c e.1 e.2 else 0 := by
    refine List.map_congr_left fun e he => ?_
    obtain ⟨e1, e2⟩ := List.mem_product.1 he
    rw [hx _ (List.mem_range.1 e1) _ (List.mem_range.1 e2)]
    split <;> simp
  rw [h1, sum_map_ite]
  refine List.Perm.sum_eq (List.Perm.map _ ((List.perm_ext_iff_of_nodup ?_ hn).2 fun e => ?_))
  · exact (List.nodup_range.product List.nodup_range).filter _
  · obtain ⟨i, j⟩ := e
    rw [List.mem_filter, decide_eq_true_eq]
    refine ⟨fun h => h.2, fun h => ⟨List.mem_product.2 ?_, h⟩⟩
    exact ⟨List.mem_range.2 (hL _ h).1, List.mem_range.2 (hL _ h).2⟩

theorem zip_tail_nodup {l : List Nat} (h : l.Nodup) : (l.zip l.tail).Nodup := by
  have : ((l.zip l.tail).map Prod.snd).Nodup := by
    rw [List.map_snd_zip (by simp)]
    exact h.sublist (List.tail_sublist _)
  exact this.of_map _

/-- Distance travelled when every vehicle uses exactly the arcs of a path. -/
theorem travelled_paths (hv : P.vehicles ≠ []) (p : Nat → List Nat) (hn : ∀ k < P.m, (p k).Nodup)
    (hb : ∀ k < P.m, ∀ i ∈ p k, i < 2 * P.n + 2)
    (hx : ∀ k < P.m, ∀ i < 2 * P.n + 2, ∀ j < 2 * P.n + 2, a.x k i j = if (i, j) ∈ (p k).zip (p k).tail then 1 else 0) :
    P.travelled a = ((List.range P.m).map fun k => (((p k).zip (p k).tail).map fun ij =>
      P.metric (P.pos ij.1) (P.pos ij.2)).sum).sum := by
  have hl := P.len_eq hv
  unfold travelled routesIdx positionsIdx
  rw [sum_product, hl]
  congr 1
  refine List.map_congr_left fun k hk => ?_
  have hk := List.mem_range.1 hk
  refine sum_arcs (zip_tail_nodup (hn k hk)) _ (fun e he => ?_) (a.x k) (fun i j => P.metric (P.pos i) (P.pos j)) (hx k hk)
  exact ⟨hb k hk _ (List.of_mem_zip he).1, hb k hk _ (List.mem_of_mem_tail (List.of_mem_zip he).2)⟩

theorem plan_travelled (hv : P.vehicles ≠ []) {π : Plan} (h : π.Serves P) : P.travelled (π.toAssignment P) = π.length P :=
  travelled_paths hv (π.path P) (fun _ hk => h.path_nodup hk) (fun _ hk _ hi => h.path_lt hk hi) fun _ _ _ _ _ _ => rfl

/-- No node is at the place of another. -/
theorem pos_ne (hv : P.vehicles ≠ []) (hp : P.positions.Nodup) {i j : Nat} (hi : i < 2 * P.n + 2) (hj : j < 2 * P.n + 2)
    (h : i ≠ j) : P.pos i ≠ P.pos j := by
  intro e
  have hl := P.len_eq hv
  have hi : i < P.positions.length := by change i < P.len; omega
  have hj : j < P.positions.length := by change j < P.len; omega
  unfold pos at e
  rw [List.getD_eq_getElem?_getD, List.getD_eq_getElem?_getD, List.getElem?_eq_getElem hi, List.getElem?_eq_getElem hj] at e
  exact h ((hp.getElem_inj_iff).1 e)

/-- A plan uses no loop, so that its arcs cost what they are long. -/
theorem plan_objective (hv : P.vehicles ≠ []) (hp : P.positions.Nodup) {π : Plan} (h : π.Serves P)
    (hs : P.solves (π.toAssignment P) = true) : P.objective (π.toAssignment P) = π.length P := by
  rw [← plan_travelled hv h]
  refine C60_objective_is_distance_partial hv hs fun k hk i j hu => pos_ne hv hp hu.1 hu.2.1 ?_
  rintro rfl
  exact no_loop_in_path (h.path_nodup hk) i (Plan.x_one.1 hu.2.2)

theorem travelled_nonneg (hv : P.vehicles ≠ []) (hm : ∀ p q, 0 ≤ P.metric p q) (hs : P.Solution a) : 0 ≤ P.travelled a := by
  have hl := P.len_eq hv
  refine List.sum_nonneg fun y hy => ?_
  obtain ⟨⟨k, i, j⟩, he, rfl⟩ := List.mem_map.1 hy
  obtain ⟨hk, he⟩ := List.mem_product.1 he
  obtain ⟨hi, hj⟩ := List.mem_product.1 he
  simp only [routesIdx, positionsIdx, List.mem_range] at hk hi hj
  have hx : 0 ≤ a.x k i j := by
    rcases hs.bin k hk i (by omega) j (by omega) with e | e <;> simp [e]
  exact mul_nonneg hx (hm _ _)

/-- A loop costs ten thousand. -/
theorem loop_costs (hv : P.vehicles ≠ []) (hm : ∀ p q, 0 ≤ P.metric p q) (h0 : ∀ p, P.metric p p = 0) (hs : P.solves a = true)
    {k i : Nat} (hk : k < P.m) (hu : P.Uses a k i i) : big ≤ P.objective a := by
  have hl := P.len_eq hv
  have hsol := (solves_iff a).1 hs
  rw [C60_objective_excess_partial h0]
  have h1 := travelled_nonneg hv hm hsol
  have h2 : 1 ≤ ((P.routesIdx.product (P.positionsIdx.product P.positionsIdx)).map fun kij =>
      if P.pos kij.2.1 = P.pos kij.2.2 then a.x kij.1 kij.2.1 kij.2.2 else 0).sum := by
    refine le_trans ?_ (List.single_le_sum (fun y hy => ?_) 1 (List.mem_map.2 ⟨(k, i, i), ?_, ?_⟩))
    · exact le_refl _
    · obtain ⟨⟨k, i, j⟩, he, rfl⟩ := List.mem_map.1 hy
      obtain ⟨hk, he⟩ := List.mem_product.1 he
      obtain ⟨hi, hj⟩ := List.mem_product.1 he
      simp only [routesIdx, positionsIdx, List.mem_range] at hk hi hj
      simp only
      split
      · rcases hsol.bin k hk i (by omega) j (by omega) with e | e <;> simp [e]
      · exact le_refl _
    · have := hu.1
      simp only [routesIdx, positionsIdx]
      exact List.mem_product.2 ⟨List.mem_range.2 hk, List.mem_product.2 ⟨List.mem_range.2 (by omega), List.mem_range.2 (by omega)⟩⟩
    · simp [hu.2.2]
  have hb : (0 : ℚ) < big := by unfold big; norm_num
  nlinarith

end Milp

variable {E : Env} {vs ts : List Nat} {a : Assignment} {o d : Pos}

open Milp

/-- What the routes built from a solution measure, in the order of Dial-a-Ride. -/
def builtValue (E : Env) (vs ts : List Nat) (a : Assignment) (h : Heap) (v : List ℚ) : Prop :=
  ∃ rs h', milpOptimize E vs ts a h = (.ok rs, h') ∧ planningValue E .dialARide (rs.map (planOf E h'.core)) = v

/-- The full property: a solution that is no worse than a plan gives routes that are no longer than the plan. -/
def PrefersShorter (E : Env) (vs ts : List Nat) : Prop :=
  ∀ (a : Assignment) (π : Plan), (milpOf E vs ts).solves a = true → π.Serves (milpOf E vs ts) →
    (milpOf E vs ts).solves (π.toAssignment (milpOf E vs ts)) = true →
    (milpOf E vs ts).objective a ≤ (milpOf E vs ts).objective (π.toAssignment (milpOf E vs ts)) →
    ∀ h, ∃ L, builtValue E vs ts a h [(ts.length : ℚ), -L] ∧ L ≤ π.length (milpOf E vs ts)

theorem tourLength_zip (hsym : ∀ p q, E.metric p q = E.metric q p) (f : Nat → Pos) : ∀ (l : List Nat) (i : Nat),
    tourLength E (f i) (l.map f) = (((i :: l).zip (i :: l).tail).map fun e => E.metric (f e.1) (f e.2)).sum := by
  intro l
  induction l with
  | nil => intro i; rfl
  | cons j l ih =>
    intro i
    rw [List.map_cons, tourLength, ih j, hsym (f j)]
    simp only [List.tail_cons, List.zip_cons_cons, List.map_cons, List.sum_cons]

/-- The routes of a solution serve all trips and are together as long as the distance travelled in the solution. -/
theorem routes_length (H : Readable E vs ts o) (hdest : ∀ v ∈ vs, (E.vehicle v).destination.position = d)
    (hsym : ∀ p q, E.metric p q = E.metric q p) (here : ∀ p, E.metric p p = 0)
    (hp : (milpOf E vs ts).positions.Nodup) (hs : (milpOf E vs ts).solves a = true)
    (h0 : ∀ k < vs.length, ¬ (milpOf E vs ts).Uses a k 0 0) (h : Heap) :
    builtValue E vs ts a h [(ts.length : ℚ), -(milpOf E vs ts).travelled a] := by
  obtain ⟨ns, h', hns, run, b, made⟩ := H.run hs h0 h
  obtain ⟨hpicks, _⟩ := H.served hs hns made
  refine ⟨_, h', run, ?_⟩
  have hv := milpOf_vehicles (E := E) (ts := ts) H.vehicles
  have hm : (milpOf E vs ts).m = vs.length := by simp [milpOf, Milp.m]
  have hP : (milpOf E vs ts).n = ts.length := milpOf_n
  have hrange : List.range' h.core.nRoute vs.length = (List.range vs.length).map (h.core.nRoute + ·) := by
    rw [List.range_eq_range', List.map_add_range', Nat.add_zero]
  have hpd : (milpOf E vs ts).pos (2 * ts.length + 1) = d := by
    obtain ⟨v, hvm, e⟩ := H.pos_last
    rw [e]; exact hdest v hvm
  have hsol := (Milp.solves_iff a).1 hs
  have harc : ∀ k < (milpOf E vs ts).m, ∀ i < 2 * (milpOf E vs ts).n + 2, ∀ j < 2 * (milpOf E vs ts).n + 2, a.x k i j =
      if (i, j) ∈ (0 :: (ns k ++ [2 * (milpOf E vs ts).n + 1])).zip (0 :: (ns k ++ [2 * (milpOf E vs ts).n + 1])).tail then 1 else 0 := by
    intro k hk i hi j hj
    have hl := (milpOf E vs ts).len_eq hv
    have T := hns k (by omega)
    split
    · rename_i hz
      obtain ⟨q, r, e⟩ := zip_tail_split hz
      have hc := T.path.arcs
      rw [e] at hc
      exact (List.isChain_cons_cons.1 (List.isChain_append.1 hc).2.1).1.2.2
    · rename_i hz
      refine (hsol.bin k hk i (by omega) j (by omega)).resolve_right fun hx => ?_
      rcases T.only i j ⟨hi, hj, hx⟩ with h1 | h1
      · exact hz h1
      · simp only [Prod.mk.injEq] at h1
        obtain ⟨rfl, rfl⟩ := h1
        rw [hP] at hi hj hx
        exact pos_ne hv hp (by omega) (by omega) (by omega) (H.back hs (by omega) T ⟨by omega, by omega, hx⟩)
  have htrav := travelled_paths hv (fun k => 0 :: (ns k ++ [2 * (milpOf E vs ts).n + 1]))
    (fun k hk => (hns k (by omega)).path.nodup) (by
      intro k hk i hi
      have := (hns k (by omega)).inner
      simp only [List.mem_cons, List.mem_append, List.not_mem_nil, or_false] at hi
      rcases hi with rfl | hi | rfl
      · omega
      · have := this i hi; omega
      · omega) harc
  have hlen : ∀ k, (hk : k < vs.length) → tourLength E (E.vehicle vs[k]).origin.position
      (((0 :: ns k).map (nodeVisit E ts a k vs[k]) ++ [homeVisit E vs[k]]).map Visit.pos) =
      (((0 :: (ns k ++ [2 * (milpOf E vs ts).n + 1])).zip (0 :: (ns k ++ [2 * (milpOf E vs ts).n + 1])).tail).map fun ij =>
        (milpOf E vs ts).metric ((milpOf E vs ts).pos ij.1) ((milpOf E vs ts).pos ij.2)).sum := by
    intro k hk
    have ho : (E.vehicle vs[k]).origin.position = (milpOf E vs ts).pos 0 := by
      rw [H.pos_zero]; exact H.origin _ (List.getElem_mem hk)
    have e : ((0 :: ns k).map (nodeVisit E ts a k vs[k]) ++ [homeVisit E vs[k]]).map Visit.pos =
        (milpOf E vs ts).pos 0 :: (ns k ++ [2 * (milpOf E vs ts).n + 1]).map (milpOf E vs ts).pos := by
      have hin := (hns k hk).inner
      simp only [List.map_cons, List.map_append, List.map_map, List.cons_append, List.map_nil]
      refine congrArg₂ _ ho (congrArg₂ _ (List.map_congr_left fun i hi => ?_) ?_)
      · have := hin i hi
        rw [hP] at this
        rw [milpOf_pos H.vehicles (by omega) ho]
        rfl
      · rw [hP, hpd]
        simp only [homeVisit, hdest _ (List.getElem_mem hk)]
    rw [e, tourLength, ho, here, zero_add]
    exact tourLength_zip hsym (milpOf E vs ts).pos _ 0
  unfold planningValue columnSums
  have hdim : Objective.dim .dialARide = 2 := rfl
  rw [hdim, hrange, htrav, hm]
  simp only [List.map_map, Function.comp_def, List.range_succ, List.range_zero, List.nil_append, List.map_cons,
    List.map_nil, List.cons_append, planOf, routeValue, List.getD_cons_zero, List.getD_cons_succ]
  refine congrArg₂ _ ?_ (congrArg (fun x => [x]) ?_)
  · rw [← hpicks.length_eq, hrange, List.flatMap_map, List.length_flatMap]
    rw [Nat.cast_list_sum, List.map_map]
    rfl
  · rw [← sum_map_neg]
    congr 1
    refine List.map_congr_left fun k hk => ?_
    have hk := List.mem_range.1 hk
    rw [(made k hk).vehicle, (made k hk).itin, hlen k hk]

/-- If a solution is no worse than a plan that is shorter than ten thousand, the routes built from it serve all trips and
are no longer than the plan. Missing from the full property: depots at one place, for which idle vehicles cost ten thousand
(`C78_idle_vehicle_avoided`), and what is missing of C76. -/
theorem C78_shorter_routes_partial (H : Readable E vs ts o) (hdest : ∀ v ∈ vs, (E.vehicle v).destination.position = d)
    (hsym : ∀ p q, E.metric p q = E.metric q p) (here : ∀ p, E.metric p p = 0)
    (hp : (milpOf E vs ts).positions.Nodup) (hs : (milpOf E vs ts).solves a = true)
    {π : Plan} (hπ : π.Serves (milpOf E vs ts)) (hsπ : (milpOf E vs ts).solves (π.toAssignment (milpOf E vs ts)) = true)
    (hshort : π.length (milpOf E vs ts) < big)
    (hobj : (milpOf E vs ts).objective a ≤ (milpOf E vs ts).objective (π.toAssignment (milpOf E vs ts))) (h : Heap) :
    ∃ L, builtValue E vs ts a h [(ts.length : ℚ), -L] ∧ L ≤ π.length (milpOf E vs ts) := by
  have hv := milpOf_vehicles (E := E) (ts := ts) H.vehicles
  have hm : (milpOf E vs ts).m = vs.length := by simp [milpOf, Milp.m]
  have h1 := plan_objective hv hp hπ hsπ
  have h0 : ∀ k < vs.length, ¬ (milpOf E vs ts).Uses a k 0 0 := by
    intro k hk hu
    have := loop_costs hv H.metric here hs (by omega) hu
    linarith
  refine ⟨_, routes_length H hdest hsym here hp hs h0 h, ?_⟩
  have h2 := C60_distinct_positions_partial hv H.closes' H.metric H.loading' hs (fun k hk => h0 k (by omega)) hp
  linarith

/-- The routes of an optimal solution are together as short as those of any plan, if loading and unloading take the same
time, every vehicle can carry every trip, and some plan is shorter than ten thousand. Missing from the full property: see
`C78_shorter_routes_partial` and C59. -/
theorem C78_shortest_routes_partial (H : Readable E vs ts o) (hdest : ∀ v ∈ vs, (E.vehicle v).destination.position = d)
    (hsym : ∀ p q, E.metric p q = E.metric q p) (here : ∀ p, E.metric p p = 0)
    (hp : (milpOf E vs ts).positions.Nodup)
    (hcap : ∀ v ∈ vs, ∀ t ∈ ts, 0 ≤ (E.trip t).capacity ∧ (E.trip t).capacity ≤ (E.vehicle v).capacity)
    (hdur : ∀ t ∈ ts, (E.trip t).origin.duration ≤ (E.trip t).destination.duration)
    (hs : (milpOf E vs ts).solves a = true)
    (hopt : ∀ b, (milpOf E vs ts).solves b = true → (milpOf E vs ts).objective a ≤ (milpOf E vs ts).objective b)
    (hshort : ∃ π : Plan, π.Serves (milpOf E vs ts) ∧ π.length (milpOf E vs ts) < big) (h : Heap) :
    ∃ L, builtValue E vs ts a h [(ts.length : ℚ), -L] ∧
      ∀ π : Plan, π.Serves (milpOf E vs ts) → L ≤ π.length (milpOf E vs ts) := by
  have hv := milpOf_vehicles (E := E) (ts := ts) H.vehicles
  have hm : (milpOf E vs ts).m = vs.length := by simp [milpOf, Milp.m]
  have admits : ∀ π : Plan, π.Serves (milpOf E vs ts) → (milpOf E vs ts).solves (π.toAssignment (milpOf E vs ts)) = true := by
    intro π hπ
    refine C59_admits_partial hv ?_ ?_ ?_ π hπ
    · intro v hv t ht
      obtain ⟨v, hv', rfl⟩ := List.mem_map.1 (show v ∈ vs.map E.vehicle from hv)
      obtain ⟨t, ht', rfl⟩ := List.mem_map.1 (show t ∈ ts.map E.trip from ht)
      exact hcap v hv' t ht'
    · intro t ht
      obtain ⟨t, ht', rfl⟩ := List.mem_map.1 (show t ∈ ts.map E.trip from ht)
      have h1 := (List.nodup_cons.1 H.places).2
      exact (List.nodup_append.1 h1).2.2 _ (List.mem_map_of_mem (f := fun t => (E.trip t).origin.position) ht') _
        (List.mem_map_of_mem (f := fun t => (E.trip t).destination.position) ht')
    · intro t ht
      obtain ⟨t, ht', rfl⟩ := List.mem_map.1 (show t ∈ ts.map E.trip from ht)
      exact hdur t ht'
  obtain ⟨π₀, hπ₀, hlt⟩ := hshort
  have h0 : ∀ k < vs.length, ¬ (milpOf E vs ts).Uses a k 0 0 := by
    intro k hk hu
    have h1 := loop_costs hv H.metric here hs (by omega) hu
    have h2 := plan_objective hv hp hπ₀ (admits π₀ hπ₀)
    have h3 := hopt _ (admits π₀ hπ₀)
    linarith
  refine ⟨_, routes_length H hdest hsym here hp hs h0 h, fun π hπ => ?_⟩
  have h2 := C60_distinct_positions_partial hv H.closes' H.metric H.loading' hs (fun k hk => h0 k (by omega)) hp
  have h3 := hopt _ (admits π hπ)
  rw [plan_objective hv hp hπ (admits π hπ)] at h3
  linarith

/-! ## Cases -/

/-- The first vehicle serves both trips of `demo`, the other one only drives from depot to depot. -/
def onePlan : Plan where
  stops k := if k = 0 then [1, 3, 2, 4] else []
  time i := if i = 1 then 1 else if i = 2 then 5 else if i = 3 then 3 else 7
  start _ := 0
  finish _ := 12

/-- The job of `demo` with vehicles that end at 5. -/
def across : Milp where
  vehicles := [⟨⟨[0], 0, .inf, 0⟩, some ⟨[5], 0, .inf, 0⟩, 2, .fin 100⟩, ⟨⟨[0], 0, .inf, 0⟩, some ⟨[5], 0, .inf, 0⟩, 2, .fin 100⟩]
  trips := demo.trips
  metric := lineMetric

theorem onePlan_order {P : Milp} (hn : P.n = 2) : ∀ k < P.m, ∀ t < P.n, ∀ q r, onePlan.stops k = q ++ (P.n + (t + 1)) :: r → t + 1 ∈ q := by
  intro k _ t ht q r h
  rw [hn] at h ht
  have h1 := mem_splits h
  by_cases hk : k = 0
  · subst hk
    have : ∀ t < 2, ∀ s ∈ splits (onePlan.stops 0), s.2.1 = 2 + (t + 1) → t + 1 ∈ s.1 := by decide
    exact this t ht _ h1 rfl
  · simp [onePlan, hk, splits] at h1

theorem onePlan_served {P : Milp} (hn : P.n = 2) (hm : P.m = 2) : ∀ t < P.n, ∃ k < P.m, t + 1 ∈ onePlan.stops k ∧
    P.n + (t + 1) ∈ onePlan.stops k ∧ ∀ k' < P.m, k' ≠ k → t + 1 ∉ onePlan.stops k' ∧ P.n + (t + 1) ∉ onePlan.stops k' := by
  intro t ht
  rw [hn] at ht ⊢
  rw [hm]
  have : t = 0 ∨ t = 1 := by omega
  rcases this with rfl | rfl
  · exact ⟨0, by decide, by decide, by decide, by decide⟩
  · exact ⟨0, by decide, by decide, by decide, by decide⟩

theorem onePlan_times (i : Nat) : 0 ≤ onePlan.time i := by
  simp only [onePlan]
  split
  · norm_num
  · split
    · norm_num
    · split <;> norm_num

theorem onePlan_serves_demo : onePlan.Serves (milpOf demo.env [0, 1] [0, 1]) := by
  refine ⟨onePlan_served rfl rfl, by decide, by decide, onePlan_order rfl, by decide +kernel, by decide +kernel, by decide +kernel,
    by decide +kernel, ?_, by decide +kernel, onePlan_times, by decide +kernel⟩
  intro k hk q i r hs
  have hall : ∀ k, (hk : k < (milpOf demo.env [0, 1] [0, 1]).m) → ∀ s ∈ splits (onePlan.path (milpOf demo.env [0, 1] [0, 1]) k),
      0 ≤ ((s.1 ++ [s.2.1]).map (milpOf demo.env [0, 1] [0, 1]).request).sum ∧
      ((s.1 ++ [s.2.1]).map (milpOf demo.env [0, 1] [0, 1]).request).sum ≤ ((milpOf demo.env [0, 1] [0, 1]).vehicles[k]).capacity := by
    decide +kernel
  exact hall k hk _ (mem_splits hs)

theorem onePlan_serves_across : onePlan.Serves (milpOf across.env [0, 1] [0, 1]) := by
  refine ⟨onePlan_served rfl rfl, by decide, by decide, onePlan_order rfl, by decide +kernel, by decide +kernel, by decide +kernel,
    by decide +kernel, ?_, by decide +kernel, onePlan_times, by decide +kernel⟩
  intro k hk q i r hs
  have hall : ∀ k, (hk : k < (milpOf across.env [0, 1] [0, 1]).m) → ∀ s ∈ splits (onePlan.path (milpOf across.env [0, 1] [0, 1]) k),
      0 ≤ ((s.1 ++ [s.2.1]).map (milpOf across.env [0, 1] [0, 1]).request).sum ∧
      ((s.1 ++ [s.2.1]).map (milpOf across.env [0, 1] [0, 1]).request).sum ≤ ((milpOf across.env [0, 1] [0, 1]).vehicles[k]).capacity := by
    decide +kernel
  exact hall k hk _ (mem_splits hs)

theorem across_readable : Readable across.env [0, 1] [0, 1] [0] where
  vehicles := by decide
  places := by unfold DistinctPlaces; decide +kernel
  origin := by decide +kernel
  far := by decide +kernel
  closes := by
    intro t ht
    simp only [List.mem_cons, List.not_mem_nil, or_false] at ht
    rcases ht with rfl | rfl <;> exact ⟨_, rfl⟩
  metric p q := abs_nonneg _
  loading := by decide +kernel

example (h : Heap) : ∃ L, builtValue across.env [0, 1] [0, 1] demoTwo h [2, -L] ∧ L ≤ onePlan.length (milpOf across.env [0, 1] [0, 1]) :=
  C78_shorter_routes_partial (d := [5]) across_readable (by decide +kernel) (fun p q => abs_sub_comm _ _)
    (fun p => by simp [env, across, lineMetric]) (by decide +kernel) (by decide +kernel) onePlan_serves_across (by decide +kernel)
    (by decide +kernel) (by decide +kernel) h

/-- Both are as short as possible. -/
example : onePlan.length (milpOf across.env [0, 1] [0, 1]) = 10 ∧ (milpOf across.env [0, 1] [0, 1]).objective demoTwo = 10 := by
  constructor <;> decide +kernel

/-- The only vehicle of `farDepot` serves the trip. -/
def farPlan : Plan where
  stops k := if k = 0 then [1, 2] else []
  time i := if i = 1 then 1 else 3
  start _ := 0
  finish _ := 11

theorem farPlan_serves : farPlan.Serves (milpOf farDepot.env [0] [0]) := by
  refine ⟨?_, by decide, by decide, ?_, by decide +kernel, by decide +kernel, by decide +kernel, by decide +kernel, ?_,
    by decide +kernel, ?_, by decide +kernel⟩
  · intro t ht
    have ht : t < 1 := ht
    have : t = 0 := by omega
    subst this
    exact ⟨0, by decide, by decide, by decide, by decide⟩
  · intro k hk t ht q r h
    have hk : k < 1 := hk
    have ht : t < 1 := ht
    obtain rfl : k = 0 := by omega
    obtain rfl : t = 0 := by omega
    have : ∀ s ∈ splits (farPlan.stops 0), s.2.1 = 2 → 1 ∈ s.1 := by decide
    exact this _ (mem_splits h) rfl
  · intro k hk q i r hs
    have hall : ∀ k, (hk : k < (milpOf farDepot.env [0] [0]).m) → ∀ s ∈ splits (farPlan.path (milpOf farDepot.env [0] [0]) k),
        0 ≤ ((s.1 ++ [s.2.1]).map (milpOf farDepot.env [0] [0]).request).sum ∧
        ((s.1 ++ [s.2.1]).map (milpOf farDepot.env [0] [0]).request).sum ≤ ((milpOf farDepot.env [0] [0]).vehicles[k]).capacity := by
      decide +kernel
    exact hall k hk _ (mem_splits hs)
  · intro i
    simp only [farPlan]
    split <;> norm_num

theorem far_optimal (b : Assignment) (hb : (milpOf farDepot.env [0] [0]).solves b = true) :
    (milpOf farDepot.env [0] [0]).objective farSolution ≤ (milpOf farDepot.env [0] [0]).objective b := by
  have h9 : (milpOf farDepot.env [0] [0]).objective farSolution = 9 := by decide +kernel
  rw [h9]
  have hs := (solves_iff b).1 hb
  have hl : (milpOf farDepot.env [0] [0]).len = 4 := rfl
  have hn : (milpOf farDepot.env [0] [0]).n = 1 := rfl
  have hm : (milpOf farDepot.env [0] [0]).m = 1 := rfl
  have bin := hs.bin 0 (by decide)
  have leave := hs.leave 0 (by decide)
  have enter := hs.enter 0 (by decide)
  have f1 := hs.flow 0 (by decide) 1 (by decide) (by decide)
  have f2 := hs.flow 0 (by decide) 2 (by decide) (by decide)
  rw [hl] at bin leave enter f1 f2
  simp only [Finset.sum_range_succ, Finset.sum_range_zero, zero_add, Nat.reduceSub] at leave enter f1 f2
  have hx : ∀ i < 4, ∀ j < 4, 0 ≤ b.x 0 i j := fun i hi j hj => by rcases bin i hi j hj with e | e <;> simp [e]
  have hc : ∀ i < 4, ∀ j < 4, (milpOf farDepot.env [0] [0]).cost i j =
      (([[10000, 1, 2, 9], [1, 10000, 1, 8], [2, 1, 10000, 7], [9, 8, 7, 10000]] : List (List ℚ)).getD i []).getD j 0 := by
    decide +kernel
  have ho : (milpOf farDepot.env [0] [0]).objective b = ((List.range 4).map fun i => ((List.range 4).map fun j =>
      b.x 0 i j * (milpOf farDepot.env [0] [0]).cost i j).sum).sum := by
    unfold objective routesIdx positionsIdx
    rw [sum_product, hm, hl]
    simp only [List.range_one, List.map_cons, List.map_nil, List.sum_cons, List.sum_nil, add_zero]
    rw [sum_product]
  rw [ho]
  have hr : List.range 4 = [0, 1, 2, 3] := rfl
  simp only [hr, List.map_cons, List.map_nil, List.sum_cons, List.sum_nil]
  rw [hc 0 (by decide) 0 (by decide), hc 0 (by decide) 1 (by decide), hc 0 (by decide) 2 (by decide), hc 0 (by decide) 3 (by decide),
    hc 1 (by decide) 0 (by decide), hc 1 (by decide) 1 (by decide), hc 1 (by decide) 2 (by decide), hc 1 (by decide) 3 (by decide),
    hc 2 (by decide) 0 (by decide), hc 2 (by decide) 1 (by decide), hc 2 (by decide) 2 (by decide), hc 2 (by decide) 3 (by decide),
    hc 3 (by decide) 0 (by decide), hc 3 (by decide) 1 (by decide), hc 3 (by decide) 2 (by decide), hc 3 (by decide) 3 (by decide)]
  simp only [List.getD_cons_zero, List.getD_cons_succ]
  linarith [hx 0 (by decide) 0 (by decide), hx 0 (by decide) 1 (by decide), hx 0 (by decide) 2 (by decide), hx 0 (by decide) 3 (by decide),
    hx 1 (by decide) 0 (by decide), hx 1 (by decide) 1 (by decide), hx 1 (by decide) 2 (by decide), hx 1 (by decide) 3 (by decide),
    hx 2 (by decide) 0 (by decide), hx 2 (by decide) 1 (by decide), hx 2 (by decide) 2 (by decide), hx 2 (by decide) 3 (by decide),
    hx 3 (by decide) 0 (by decide), hx 3 (by decide) 1 (by decide), hx 3 (by decide) 2 (by decide), hx 3 (by decide) 3 (by decide)]

theorem far_readable : Readable farDepot.env [0] [0] [0] where
  vehicles := by decide
  places := by unfold DistinctPlaces; decide +kernel
  origin := by decide +kernel
  far := by decide +kernel
  closes := by
    intro t ht
    rw [List.mem_singleton.1 ht]
    exact ⟨_, rfl⟩
  metric p q := abs_nonneg _
  loading := by decide +kernel

example (h : Heap) : ∃ L, builtValue farDepot.env [0] [0] farSolution h [1, -L] ∧
    ∀ π : Plan, π.Serves (milpOf farDepot.env [0] [0]) → L ≤ π.length (milpOf farDepot.env [0] [0]) :=
  C78_shortest_routes_partial (d := [9]) far_readable (by decide +kernel) (fun p q => abs_sub_comm _ _)
    (fun p => by simp [env, farDepot, lineMetric]) (by decide +kernel) (by decide +kernel) (by decide +kernel) (by decide +kernel)
    far_optimal ⟨farPlan, farPlan_serves, by decide +kernel⟩ h

/-- With one depot, two vehicles that drive 12 together are preferred to one that drives 8. -/
theorem C78_idle_vehicle_avoided : (milpOf demo.env [0, 1] [0, 1]).objective demoTwo = 12 ∧
    onePlan.length (milpOf demo.env [0, 1] [0, 1]) = 8 ∧
    (milpOf demo.env [0, 1] [0, 1]).objective (onePlan.toAssignment (milpOf demo.env [0, 1] [0, 1])) = 10008 ∧
    ¬ PrefersShorter demo.env [0, 1] [0, 1] := by
  have h1 : (milpOf demo.env [0, 1] [0, 1]).objective demoTwo = 12 := by decide +kernel
  have h2 : onePlan.length (milpOf demo.env [0, 1] [0, 1]) = 8 := by decide +kernel
  have h3 : (milpOf demo.env [0, 1] [0, 1]).objective (onePlan.toAssignment (milpOf demo.env [0, 1] [0, 1])) = 10008 := by
    decide +kernel
  refine ⟨h1, h2, h3, fun H => ?_⟩
  obtain ⟨L, ⟨rs, h', run, e⟩, hL⟩ := H demoTwo onePlan demo_solved.2 onePlan_serves_demo (by decide +kernel)
    (by rw [h1, h3]; norm_num) .empty
  have hr : (milpOptimize demo.env [0, 1] [0, 1] demoTwo .empty).1 = .ok [0, 1] := by decide +kernel
  have hval : planningValue demo.env .dialARide
      ([0, 1].map (planOf demo.env (milpOptimize demo.env [0, 1] [0, 1] demoTwo .empty).2.core)) = [2, -12] := by decide +kernel
  rw [run] at hr hval
  simp only [Except.ok.injEq] at hr
  subst hr
  rw [hval] at e
  simp only [List.cons.injEq, neg_inj, and_true] at e
  rw [h2, ← e.2] at hL
  exact absurd hL (by norm_num)

end Jinete
