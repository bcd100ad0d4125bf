import Verif.Model.RoundedValue
import Verif.Spec.RoundedValue
import Verif.Proofs.Euclidean
import Verif.Proofs.Values

/-!
# Sums of distances in doubles
-/

set_option autoImplicit false

namespace Jinete

variable {E : Env} {c : Core} {r : Nat} {dist : Pos → Pos → ℚ}

theorem tourLegs_chain {veh : Nat} : ∀ (suf pre : List Nat), LinkedFrom c pre.getLast? suf → (∀ s ∈ suf, (c.stop s).vehicle = veh) →
    legs (pre.getLast?.elim (E.vehicle veh).origin.position fun s => (c.stop s).position) (suf.map fun s => (c.stop s).position) =
      suf.map fun s => ((c.stop s).position, stopPrevPosition E c s) := by
  intro suf
  induction suf with
  | nil => intros; rfl
  | cons s suf ih =>
    intro pre hl hv
    have h1 := ih (pre ++ [s]) (by simpa using hl.2) (fun x hx => hv x (by simp [hx]))
    have h2 : (c.stop s).previous = pre.getLast? := hl.1
    simp only [List.getLast?_append, List.getLast?_singleton, Option.some_or, Option.elim_some] at h1
    simp only [List.map_cons, legs, h1, stopPrevPosition, h2]
    cases pre.getLast? with
    | none => simp [hv s (by simp)]
    | some q => rfl

/-- The legs of a route. -/
theorem Chained.legs_eq (hc : Chained c r) :
    tourLegs (E.vehicle (c.route r).vehicle).origin.position (itinerary c r) =
      (c.route r).stops.map fun s => ((c.stop s).position, stopPrevPosition E c s) := by
  have := tourLegs_chain (E := E) (c.route r).stops [] (linked_iff_from.1 hc.linked) hc.vehicle
  simpa [tourLegs, itinerary, List.map_map, Function.comp_def, visitOf] using this

theorem legs_places {place : Pos → Prop} : ∀ (l : List Pos) (p : Pos), place p → (∀ q ∈ l, place q) →
    ∀ x ∈ legs p l, place x.1 ∧ place x.2 := by
  intro l
  induction l with
  | nil => intro p _ _ x hx; simp [legs] at hx
  | cons q l ih =>
    intro p hp hl x hx
    have hq := hl q (by simp)
    rcases List.mem_cons.1 hx with rfl | hx
    · exact ⟨hq, hp⟩
    · exact ih q hq (fun y hy => hl y (by simp [hy])) x hx

theorem legs_length : ∀ (l : List Pos) (p : Pos), (legs p l).length = l.length := by
  intro l
  induction l with
  | nil => intro; rfl
  | cons q l ih => intro p; simp [legs, ih]

theorem doubles_total {l : List ℚ} (hl : ∀ x ∈ l, 0 ≤ x) :
    0 ≤ (doubles dist).total l ∧ (1 - halfUnit) ^ l.length * l.sum ≤ (doubles dist).total l ∧
    (doubles dist).total l ≤ (1 + halfUnit) ^ l.length * l.sum := by
  have h := foldl_factor l 0 le_rfl hl
  rw [zero_add] at h
  have hs : 0 ≤ l.sum := List.sum_nonneg hl
  have v1 := halfUnit_lt
  exact ⟨le_trans (mul_nonneg (pow_nonneg (by linarith) _) hs) h.1, h.1, h.2⟩

/-- Both components of the value of a planning. -/
theorem planningValue_eq (c : Core) (routes : List Nat) :
    (doubles dist).planningValue E c routes =
      ((routes.map fun r => (routeTrips c r).length).sum, -(doubles dist).total (routes.map ((doubles dist).routeDistance E c))) := by
  have key : ∀ (l : List Nat) (n : ℕ) (q : ℚ),
      (l.map ((doubles dist).routeValue E c)).foldl (fun a b => (a.1 + b.1, (doubles dist).round (a.2 + b.2))) (n, -q) =
        (n + (l.map fun r => (routeTrips c r).length).sum,
          -(l.map ((doubles dist).routeDistance E c)).foldl (fun s x => (doubles dist).round (s + x)) q) := by
    intro l
    induction l with
    | nil => intro n q; simp
    | cons r l ih =>
      intro n q
      have e : (doubles dist).round (-q + -(doubles dist).routeDistance E c r) =
          -(doubles dist).round (q + (doubles dist).routeDistance E c r) := by
        rw [← neg_add]; exact roundDouble_neg _
      simp only [List.map_cons, List.foldl_cons, List.sum_cons, Reckoning.routeValue, e]
      have := ih (n + (routeTrips c r).length) ((doubles dist).round (q + (doubles dist).routeDistance E c r))
      rw [this, add_assoc]
  have := key routes 0 0
  simp only [neg_zero, zero_add] at this
  exact this

/-- The length of a planning before the errors of the distances. -/
theorem planningLength_factor (h0 : ∀ a b, 0 ≤ dist a b) (routes : List Nat) (n : ℕ) (hn : ∀ r ∈ routes, (c.route r).stops.length ≤ n) :
    (1 - halfUnit) ^ (n + routes.length) *
        (routes.map fun r => ((c.route r).stops.map fun s => dist (c.stop s).position (stopPrevPosition E c s)).sum).sum ≤
      (doubles dist).total (routes.map ((doubles dist).routeDistance E c)) ∧
    (doubles dist).total (routes.map ((doubles dist).routeDistance E c)) ≤ (1 + halfUnit) ^ (n + routes.length) *
        (routes.map fun r => ((c.route r).stops.map fun s => dist (c.stop s).position (stopPrevPosition E c s)).sum).sum := by
  have v0 := halfUnit_pos
  have v1 := halfUnit_lt
  have hd : ∀ r, ∀ x ∈ (c.route r).stops.map fun s => dist (c.stop s).position (stopPrevPosition E c s), 0 ≤ x := by
    intro r x hx
    obtain ⟨s, _, rfl⟩ := List.mem_map.1 hx
    exact h0 _ _
  have hone : ∀ r ∈ routes, 0 ≤ (doubles dist).routeDistance E c r ∧
      (1 - halfUnit) ^ n * ((c.route r).stops.map fun s => dist (c.stop s).position (stopPrevPosition E c s)).sum ≤
        (doubles dist).routeDistance E c r ∧
      (doubles dist).routeDistance E c r ≤
        (1 + halfUnit) ^ n * ((c.route r).stops.map fun s => dist (c.stop s).position (stopPrevPosition E c s)).sum := by
    intro r hr
    obtain ⟨a, b, e⟩ := doubles_total (dist := dist) (hd r)
    have hs := List.sum_nonneg (hd r)
    rw [List.length_map] at b e
    refine ⟨a, le_trans ?_ b, le_trans e ?_⟩
    · exact mul_le_mul_of_nonneg_right (pow_le_pow_of_le_one (by linarith) (by linarith) (hn r hr)) hs
    · exact mul_le_mul_of_nonneg_right (pow_le_pow_right₀ (by linarith) (hn r hr)) hs
  obtain ⟨_, b, e⟩ := doubles_total (dist := dist) (l := routes.map ((doubles dist).routeDistance E c))
    (fun x hx => by obtain ⟨r, hr, rfl⟩ := List.mem_map.1 hx; exact (hone r hr).1)
  rw [List.length_map] at b e
  have low : (1 - halfUnit) ^ n *
      (routes.map fun r => ((c.route r).stops.map fun s => dist (c.stop s).position (stopPrevPosition E c s)).sum).sum ≤
      (routes.map ((doubles dist).routeDistance E c)).sum := by
    rw [← List.sum_map_mul_left]
    exact List.sum_le_sum fun r hr => (hone r hr).2.1
  have up : (routes.map ((doubles dist).routeDistance E c)).sum ≤ (1 + halfUnit) ^ n *
      (routes.map fun r => ((c.route r).stops.map fun s => dist (c.stop s).position (stopPrevPosition E c s)).sum).sum := by
    rw [← List.sum_map_mul_left]
    exact List.sum_le_sum fun r hr => (hone r hr).2.2
  constructor
  · refine le_trans ?_ b
    rw [pow_add, mul_comm ((1 - halfUnit) ^ n), mul_assoc]
    exact mul_le_mul_of_nonneg_left low (pow_nonneg (by linarith) _)
  · refine le_trans e ?_
    rw [pow_add, mul_comm ((1 + halfUnit) ^ n), mul_assoc]
    exact mul_le_mul_of_nonneg_left up (pow_nonneg (by linarith) _)

theorem pow_upper_linear {v : ℚ} (hv : 0 ≤ v) (m : ℕ) (h : 2 * (m : ℚ) * v ≤ 1) : (1 + v) ^ m ≤ 1 + 2 * m * v := by
  induction m with
  | zero => simp
  | succ m ih =>
    push_cast at h
    have hm : 0 ≤ (m : ℚ) * v := mul_nonneg (Nat.cast_nonneg m) hv
    have := ih (by nlinarith)
    rw [pow_succ]
    push_cast
    nlinarith [mul_le_mul_of_nonneg_right this (by linarith : (0 : ℚ) ≤ 1 + v)]

end Jinete
