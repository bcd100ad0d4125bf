import Verif.Props.Milp
import Mathlib.Tactic.NormNum
import Mathlib.Data.Rat.Floor
import Mathlib.Data.List.Nodup

/-!
# Properties of the objective and of reading solutions (C60, C61, C62)
-/

set_option autoImplicit false

namespace Jinete

namespace Milp

variable {P : Milp} {a : Assignment}

/-! ## C60 -/

/-- Of two solutions the one with the smaller objective is the shorter one. -/
def OrdersByDistance (P : Milp) : Prop := ∀ a b : Assignment, P.solves a = true → P.solves b = true →
  P.objective a < P.objective b → P.travelled a ≤ P.travelled b

/-- A vehicle that stays at its depot costs 10000, so that the longer plan is preferred. -/
theorem C60_idle_vehicle_costs : ¬ OrdersByDistance demo := by
  intro h
  have := h demoTwo demoOne demo_solved.2 demo_solved.1 (by decide +kernel)
  revert this
  decide +kernel

theorem sum_congr_product {α β γ : Type} (l : List α) (l' : List β) (l'' : List γ) (f g : α × β × γ → ℚ)
    (h : ∀ k ∈ l, ∀ i ∈ l', ∀ j ∈ l'', f (k, i, j) = g (k, i, j)) :
    ((l.product (l'.product l'')).map f).sum = ((l.product (l'.product l'')).map g).sum := by
  congr 1
  refine List.map_congr_left fun kij hk => ?_
  obtain ⟨k, i, j⟩ := kij
  have h1 := List.mem_product.1 hk
  have h2 := List.mem_product.1 h1.2
  exact h k h1.1 i h2.1 j h2.2

/-- The objective of a solution is the distance travelled if no vehicle uses an arc between two equal positions.
Missing from the full property: arcs between equal positions, which cost 10000 instead of nothing. -/
theorem C60_objective_is_distance_partial (hv : P.vehicles ≠ []) (h : P.solves a = true)
    (hne : ∀ k < P.m, ∀ i j, P.Uses a k i j → P.pos i ≠ P.pos j) : P.objective a = P.travelled a := by
  have hs := (solves_iff a).1 h
  have hl := P.len_eq hv
  refine sum_congr_product _ _ _ _ _ fun k hk i hi j hj => ?_
  simp only [routesIdx, positionsIdx, List.mem_range] at hk hi hj
  by_cases hu : P.Uses a k i j
  · simp only [cost]
    rw [if_neg (hne k hk i j hu)]
  · rw [hs.uses_zero hv hk (by omega) (by omega) hu]
    simp

/-- In general the objective exceeds the distance travelled by 10000 for each arc used between equal positions, if such
positions are at distance zero. -/
theorem C60_objective_excess_partial (hm : ∀ p, P.metric p p = 0) : P.objective a = P.travelled a +
    big * ((P.routesIdx.product (P.positionsIdx.product P.positionsIdx)).map fun kij =>
      if P.pos kij.2.1 = P.pos kij.2.2 then a.x kij.1 kij.2.1 kij.2.2 else 0).sum := by
  unfold objective travelled
  generalize P.routesIdx.product (P.positionsIdx.product P.positionsIdx) = l
  induction l with
  | nil => simp
  | cons kij l ih =>
    simp only [List.map_cons, List.sum_cons]
    rw [ih]
    by_cases hp : P.pos kij.2.1 = P.pos kij.2.2
    · simp only [cost, hp, if_true, hm]; ring
    · simp only [cost, hp, if_false]; ring

example : demo.objective demoTwo = demo.travelled demoTwo := by
  refine C60_objective_is_distance_partial (by decide) demo_solved.2 fun k hk i j hu => ?_
  obtain ⟨hi, hj, hx⟩ := hu
  have hmem : (k, i, j) ∈ [(0, 0, 1), (0, 1, 3), (0, 3, 5), (1, 0, 2), (1, 2, 4), (1, 4, 5)] := by
    by_contra hn
    have : demoTwo.x k i j = 0 := by simp only [demoTwo, ofTables]; rw [if_neg hn]
    rw [this] at hx
    exact absurd hx (by norm_num)
  simp only [List.mem_cons, Prod.mk.injEq, List.not_mem_nil, or_false] at hmem
  rcases hmem with ⟨rfl, rfl, rfl⟩ | ⟨rfl, rfl, rfl⟩ | ⟨rfl, rfl, rfl⟩ | ⟨rfl, rfl, rfl⟩ | ⟨rfl, rfl, rfl⟩ | ⟨rfl, rfl, rfl⟩ <;>
    decide +kernel

/-! ## C61 -/

/-- The value passes the validation. -/
def Accepted (v : ℚ) : Prop := min |v| |v - 1| ≤ 1 / 20

/-- An accepted value just below one is read as zero. -/
theorem C61_truncates : Accepted (97 / 100) ∧ toInt (97 / 100) = 0 ∧ round (97 / 100 : ℚ) = 1 := by
  refine ⟨?_, by decide +kernel, by decide +kernel⟩
  unfold Accepted
  refine le_trans (min_le_right _ _) ?_
  norm_num [abs_le]

/-- An accepted value is read as the nearest integer exactly if it is not in `[0.95, 1)`. Missing from the full property:
those values. -/
theorem C61_read_as_nearest_partial {v : ℚ} (h : Accepted v) : toInt v = round v ↔ ¬ (19 / 20 ≤ v ∧ v < 1) := by
  unfold Accepted at h
  have hcase : (-(1 / 20) ≤ v ∧ v ≤ 1 / 20) ∨ (19 / 20 ≤ v ∧ v ≤ 21 / 20) := by
    rcases min_le_iff.1 h with h | h <;> rw [abs_le] at h
    · exact .inl h
    · exact .inr ⟨by linarith [h.1], by linarith [h.2]⟩
  have hfloor : v.floor = ⌊v⌋ := rfl
  have hceil : v.ceil = ⌈v⌉ := Rat.ceil_eq_neg_floor_neg v
  have hround : round v = ⌊v + 1 / 2⌋ := round_eq v
  rw [hround]
  unfold toInt
  rw [hfloor, hceil]
  rcases hcase with ⟨h1, h2⟩ | ⟨h1, h2⟩
  · have hr : ⌊v + 1 / 2⌋ = 0 := by rw [Int.floor_eq_iff]; constructor <;> push_cast <;> linarith
    rw [hr]
    refine iff_of_true ?_ (by intro hh; linarith [hh.1])
    split
    · rw [Int.floor_eq_iff]; constructor <;> push_cast <;> linarith
    · rename_i hneg
      rw [Int.ceil_eq_iff]; constructor <;> push_cast <;> linarith
  · have hr : ⌊v + 1 / 2⌋ = 1 := by rw [Int.floor_eq_iff]; constructor <;> push_cast <;> linarith
    rw [hr, if_pos (by linarith)]
    by_cases hv : v < 1
    · refine iff_of_false ?_ (by simp [h1, hv])
      have : ⌊v⌋ = 0 := by rw [Int.floor_eq_iff]; constructor <;> push_cast <;> linarith
      rw [this]; norm_num
    · refine iff_of_true ?_ (by intro hh; exact hv hh.2)
      rw [Int.floor_eq_iff]; constructor <;> push_cast <;> linarith

example : toInt (103 / 100) = round (103 / 100 : ℚ) :=
  (C61_read_as_nearest_partial (by unfold Accepted; refine le_trans (min_le_right _ _) ?_; norm_num [abs_le])).2
    (by norm_num)

/-! ## C62 -/

theorem mem_insertByTime (key : Nat → ℚ) (i x : Nat) (l : List Nat) : x ∈ insertByTime key i l ↔ x = i ∨ x ∈ l := by
  induction l with
  | nil => simp [insertByTime]
  | cons j l ih =>
    unfold insertByTime
    split
    · simp
    · simp only [List.mem_cons, ih]; tauto

theorem mem_sortByTime (key : Nat → ℚ) (x : Nat) (l : List Nat) : x ∈ sortByTime key l ↔ x ∈ l := by
  induction l with
  | nil => simp [sortByTime]
  | cons j l ih =>
    change x ∈ insertByTime key j (sortByTime key l) ↔ _
    rw [mem_insertByTime, ih, List.mem_cons]

theorem mem_visitedNodes {k i : Nat} : i ∈ P.visitedNodes a k ↔ i < P.len ∧ ∃ j < P.len, toInt (a.x k i j) = 1 := by
  simp only [visitedNodes, List.mem_flatMap, List.mem_map, List.mem_filter, mem_sortByTime, positionsIdx, List.mem_range,
    decide_eq_true_eq]
  constructor
  · rintro ⟨i', hi', j, ⟨hj, hx⟩, rfl⟩; exact ⟨hi', j, hj, hx⟩
  · rintro ⟨hi, j, hj, hx⟩; exact ⟨i, hi, j, ⟨hj, hx⟩, rfl⟩

/-- The trip that is found for a position: the first one with that origin. -/
def firstTripAt (P : Milp) (p : Pos) : Option Nat :=
  (List.range P.n).find? fun t => decide ((P.trips.map fun t => t.origin.position)[t]? = some p)

/-- One step of the loop. -/
def addTrip (P : Milp) (acc : List Nat) (p : Pos) : List Nat :=
  match P.firstTripAt p with
  | none => acc
  | some t => if t ∈ acc then acc else acc ++ [t]

theorem tripsOfPositions_eq (ps : List Pos) : P.tripsOfPositions ps = ps.foldl P.addTrip [] := rfl

theorem mem_addTrip {acc : List Nat} {p : Pos} {t : Nat} : t ∈ P.addTrip acc p ↔ t ∈ acc ∨ P.firstTripAt p = some t := by
  unfold addTrip
  cases h : P.firstTripAt p with
  | none => simp
  | some t' =>
    simp only [Option.some.injEq]
    split
    · rename_i hm
      constructor
      · exact .inl
      · rintro (h | rfl)
        · exact h
        · exact hm
    · simp [eq_comm]

theorem nodup_addTrip {acc : List Nat} {p : Pos} (h : acc.Nodup) : (P.addTrip acc p).Nodup := by
  unfold addTrip
  cases P.firstTripAt p with
  | none => exact h
  | some t =>
    simp only
    split
    · exact h
    · rename_i hm
      rw [List.nodup_append]
      exact ⟨h, List.nodup_singleton _, fun x hx y hy => by rw [List.mem_singleton.1 hy]; exact fun e => hm (e ▸ hx)⟩

theorem mem_tripsOfPositions {ps : List Pos} {t : Nat} : t ∈ P.tripsOfPositions ps ↔ ∃ p ∈ ps, P.firstTripAt p = some t := by
  rw [tripsOfPositions_eq]
  have : ∀ acc : List Nat, t ∈ ps.foldl P.addTrip acc ↔ t ∈ acc ∨ ∃ p ∈ ps, P.firstTripAt p = some t := by
    induction ps with
    | nil => simp
    | cons p ps ih =>
      intro acc
      rw [List.foldl_cons, ih, mem_addTrip]
      simp only [List.mem_cons, exists_eq_or_imp, or_assoc]
  simpa using this []

theorem nodup_tripsOfPositions (ps : List Pos) : (P.tripsOfPositions ps).Nodup := by
  rw [tripsOfPositions_eq]
  have : ∀ acc : List Nat, acc.Nodup → (ps.foldl P.addTrip acc).Nodup := by
    induction ps with
    | nil => exact fun _ h => h
    | cons p ps ih => exact fun acc h => ih _ (nodup_addTrip h)
  exact this [] List.nodup_nil

theorem firstTripAt_some {p : Pos} {t : Nat} (h : P.firstTripAt p = some t) :
    ∃ ht : t < P.n, (P.trips[t]'ht).origin.position = p := by
  have h1 := List.find?_some h
  have h2 := List.mem_of_find?_eq_some h
  rw [List.mem_range] at h2
  refine ⟨h2, ?_⟩
  have h3 : t < P.trips.length := h2
  simpa [h3] using h1

theorem firstTripAt_isSome {t : Nat} (ht : t < P.n) : ∃ t', P.firstTripAt (P.trips[t]'ht).origin.position = some t' := by
  cases h : P.firstTripAt (P.trips[t]'ht).origin.position with
  | some t' => exact ⟨t', rfl⟩
  | none =>
    have := List.find?_eq_none.1 h t (by simpa using ht)
    have h3 : t < P.trips.length := ht
    simp [h3] at this

/-- The decoded route of each vehicle contains every trip whose pickup node the vehicle leaves. -/
def DecodesAll (P : Milp) : Prop := ∀ a : Assignment, P.solves a = true → ∀ k < P.m, ∀ t < P.n, ∀ j,
  P.Uses a k (t + 1) j → t ∈ P.tripsOfPositions (P.visitedPositions a k)

/-- Two trips leave from the same place. -/
def sharedOrigin : Milp where
  vehicles := [⟨⟨[0], 0, .inf, 0⟩, none, 2, .fin 100⟩]
  trips := [⟨⟨[1], 0, .fin 50, 0⟩, ⟨[2], 0, .fin 60, 0⟩, 1, 0, .fin 30⟩, ⟨⟨[1], 0, .fin 50, 0⟩, ⟨[3], 0, .fin 60, 0⟩, 1, 0, .fin 30⟩]
  metric := lineMetric

def sharedSolution : Assignment := ofTables [(0, 0, 1), (0, 1, 2), (0, 2, 3), (0, 3, 4), (0, 4, 5)]
  [[0, 1, 1, 2, 3, 6]] [[0, 1, 2, 1, 0, 0]]

/-- The second of two trips with the same origin is lost. -/
theorem C62_second_trip_lost : ¬ DecodesAll sharedOrigin := by
  intro h
  have := h sharedSolution (by decide +kernel) 0 (by decide) 1 (by decide) 3 ⟨by decide, by decide, by decide +kernel⟩
  revert this
  decide +kernel

/-- If no two trips have the same origin, every visited trip is decoded, once. Missing from the full property: trips with
a common origin; building the stops and planned trips of the route from the decoded positions. -/
theorem C62_decodes_all_partial (hv : P.vehicles ≠ [])
    (ho : ∀ t (ht : t < P.n) t' (ht' : t' < P.n), (P.trips[t]).origin.position = (P.trips[t']).origin.position → t = t') :
    DecodesAll P ∧ ∀ ps, (P.tripsOfPositions ps).Nodup := by
  refine ⟨fun a _ k _ t ht j hu => ?_, nodup_tripsOfPositions⟩
  have hl := P.len_eq hv
  obtain ⟨hi, hj, hx⟩ := hu
  rw [mem_tripsOfPositions]
  refine ⟨P.pos (t + 1), List.mem_map.2 ⟨t + 1, mem_visitedNodes.2 ⟨by omega, j, by omega, ?_⟩, rfl⟩, ?_⟩
  · rw [hx]; decide +kernel
  · rw [pos_pickup hv ht]
    obtain ⟨t', h'⟩ := firstTripAt_isSome ht
    obtain ⟨ht', hp⟩ := firstTripAt_some h'
    rw [h', ho t' ht' t ht hp]

/-- No other trip is decoded if the origins are not the position of any other node. -/
theorem C62_decodes_only_partial (hv : P.vehicles ≠ []) (hs : P.solves a = true)
    (ho : ∀ t, (ht : t < P.n) → ∀ i < 2 * P.n + 2, P.pos i = (P.trips[t]).origin.position → i = t + 1)
    {k t : Nat} (hk : k < P.m) (h : t ∈ P.tripsOfPositions (P.visitedPositions a k)) : ∃ j, P.Uses a k (t + 1) j := by
  have hl := P.len_eq hv
  have hs := (solves_iff a).1 hs
  rw [mem_tripsOfPositions] at h
  obtain ⟨p, hp, hf⟩ := h
  obtain ⟨ht, he⟩ := firstTripAt_some hf
  obtain ⟨i, hi, rfl⟩ := List.mem_map.1 hp
  obtain ⟨hi, j, hj, hx⟩ := mem_visitedNodes.1 hi
  obtain rfl := ho t ht i (by omega) he.symm
  refine ⟨j, by omega, by omega, (hs.bin k hk _ hi j hj).resolve_left fun h0 => ?_⟩
  rw [h0] at hx
  exact absurd hx (by decide +kernel)

example : 1 ∈ demo.tripsOfPositions (demo.visitedPositions demoTwo 1) := by
  refine (C62_decodes_all_partial (P := demo) (by decide) ?_).1 demoTwo demo_solved.2 1 (by decide) 1 (by decide) 4
    ⟨by decide, by decide, by decide +kernel⟩
  decide +kernel

example : ∃ j, demo.Uses demoTwo 1 2 j := by
  refine C62_decodes_only_partial (t := 1) (by decide) demo_solved.2 ?_ (by decide) (by decide +kernel)
  decide +kernel

end Milp

end Jinete
