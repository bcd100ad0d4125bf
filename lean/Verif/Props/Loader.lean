import Verif.Proofs.Loader
import Verif.Props.Feasible

/-!
# C49, C50, C51, C52, C67: loading problem instances
-/

set_option autoImplicit false

namespace Jinete

variable {D : Type}

/-- `x >>= f` succeeds exactly when both do. -/
theorem Py.bind_eq_ok {σ α β : Type} {x : Py σ α} {f : α → Py σ β} {s s' : σ} {b : β} :
    (x >>= f) s = (.ok b, s') ↔ ∃ a s1, x s = (.ok a, s1) ∧ f a s1 = (.ok b, s') := by
  constructor
  · intro h
    rw [Py.bind_run] at h
    rcases hx : x s with ⟨r, s1⟩
    rw [hx] at h
    cases r with
    | error e => simp at h
    | ok a => exact ⟨a, s1, rfl, h⟩
  · rintro ⟨a, s1, h1, h2⟩
    rw [Py.bind_ok h1, h2]

theorem mapEach_eq_ok {σ α β : Type} {f : α → Py σ β} {l : List α} {s s' : σ} {ys : List β}
    (h : Py.mapEach l f s = (.ok ys, s')) : List.Forall₂ (fun x y => ∃ s1 s2, f x s1 = (.ok y, s2)) l ys := by
  induction l generalizing s ys s' with
  | nil =>
    simp only [Py.mapEach, Py.pure_run', Prod.mk.injEq, Except.ok.injEq] at h
    rw [← h.1]; exact .nil
  | cons x l ih =>
    obtain ⟨y, s1, h1, h2⟩ := Py.bind_eq_ok.1 h
    obtain ⟨zs, s2, h3, h4⟩ := Py.bind_eq_ok.1 h2
    change (Except.ok (y :: zs), s2) = (Except.ok ys, s') at h4
    simp only [Prod.mk.injEq, Except.ok.injEq] at h4
    rw [← h4.1]
    exact .cons ⟨s, s1, h1⟩ (ih h3)

theorem index_eq_ok {σ α : Type} {l : List α} {i : Nat} {a : α} {s s' : σ} (h : Py.index l i s = (.ok a, s')) :
    l[i]? = some a ∧ s' = s := by
  rcases hb : l[i]? with _ | b
  · simp [Py.index, hb] at h
  · simp only [Py.index, hb, Py.pure_run', Prod.mk.injEq, Except.ok.injEq] at h
    exact ⟨by rw [h.1], h.2.symm⟩

theorem range_map_getElem? {β : Type} {f : Nat → β} {n k : Nat} {t : β} (h : ((List.range n).map f)[k]? = some t) :
    k < n ∧ t = f k := by
  rw [List.getElem?_map] at h
  rcases hk : (List.range n)[k]? with _ | j
  · rw [hk] at h; cases h
  · rw [hk] at h
    obtain ⟨hl, hj⟩ := List.getElem?_eq_some_iff.1 hk
    rw [List.length_range] at hl
    rw [List.getElem_range] at hj
    subst hj
    simp only [Option.map_some, Option.some.injEq] at h
    exact ⟨hl, h.symm⟩

/-! ## C49 -/

theorem ids_nodup (f : Nat → Text) (hf : Function.Injective f) (n : Nat) : ((List.range n).map f).Nodup :=
  List.Nodup.map hf List.nodup_range

/-- **C49, trips.** From well-shaped Cordeau-Laporte data with `n` requests the loader makes `n` trips with
distinct identifiers `1, ..., n`; trip `k` starts as request row `k` says, ends as row `k + n` says, carries the
load of row `k` and has the header's maximum ride time. Reading the origins and then the destinations of the
trips in order gives exactly the `2n` request rows, each once. The surface then knows the positions of these
services in addition to those it knew, each once. -/
theorem C49_requests_paired {data : Rows} {m n : Nat} {T Q L dx dy : ℚ} (hd : CordeauData data m n T Q L dx dy)
    (s : SurfaceState D) :
    ∃ trips s', cordeauJob data s = (.ok trips, s') ∧ trips.length = n ∧ (trips.map LoadedTrip.identifier).Nodup ∧
      (∀ k t, trips[k]? = some t → t.identifier = decimal (k + 1) ∧ t.trip.timeout = .fin L ∧
        ∃ row row', data[k + 2]? = some row ∧ data[k + 2 + n]? = some row' ∧ ServesRow row t.trip.origin ∧
          ServesRow row' t.trip.destination ∧ RowLoad row t.trip.capacity) ∧
      List.Forall₂ ServesRow ((data.drop 2).take (2 * n))
        (trips.map (fun t => t.trip.origin) ++ trips.map (fun t => t.trip.destination)) ∧
      s'.cached = s.cached ∧ (s.positions.Nodup → s'.positions.Nodup) ∧
      (∀ p, p ∈ s'.positions ↔ p ∈ s.positions ∨
        ∃ t ∈ trips, p = t.trip.origin.position ∨ p = t.trip.destination.position) := by
  obtain ⟨s', e, a⟩ := cordeauJob_run hd s
  have hrow : ∀ k < 2 * n, ∃ row, data[k + 2]? = some row ∧ ServesRow row (serviceOf row) ∧
      data.getD (k + 2) [] = row ∧ RowLoad row (row.getD 4 0) := by
    intro k hk
    obtain ⟨row, x, y, d, q, e, l, h1, h2⟩ := hd.requests k hk
    refine ⟨row, h1, serviceOf_servesRow h2, by simp [List.getD_eq_getElem?_getD, h1], ?_⟩
    obtain ⟨id, rest, rfl⟩ := h2.shape
    exact ⟨_, _, _, _, _, h2⟩
  refine ⟨_, s', e, by simp, ?_, ?_, ?_, a.cached, a.nodup, ?_⟩
  · rw [List.map_map]
    exact ids_nodup _ (fun a b h => Nat.succ_injective (decimal_injective h)) n
  · intro k t ht
    obtain ⟨hk, rfl⟩ := range_map_getElem? ht
    obtain ⟨row, h1, h2, h3, h4⟩ := hrow k (by omega)
    obtain ⟨row', h1', h2', h3', h4'⟩ := hrow (k + n) (by omega)
    rw [show k + n + 2 = k + 2 + n by omega] at h1' h3'
    refine ⟨rfl, rfl, row, row', h1, h1', ?_, ?_, ?_⟩
    · show ServesRow row (serviceOf (data.getD (k + 2) []))
      rw [h3]; exact h2
    · show ServesRow row' (serviceOf (data.getD (k + 2 + n) []))
      rw [h3']; exact h2'
    · show RowLoad row ((data.getD (k + 2) []).getD 4 0)
      rw [h3]; exact h4
  · have hlen : 2 * n + 2 ≤ data.length ∨ n = 0 := by
      rcases Nat.eq_zero_or_pos n with h | h
      · exact Or.inr h
      · obtain ⟨row, h1, _⟩ := hrow (2 * n - 1) (by omega)
        have := (List.getElem?_eq_some_iff.1 h1).1
        omega
    have e1 : (data.drop 2).take (2 * n) = (List.range (2 * n)).map fun k => data.getD (k + 2) [] := by
      apply List.ext_getElem
      · simp only [List.length_take, List.length_drop, List.length_map, List.length_range]
        omega
      · intro i h1 h2
        simp only [List.length_map, List.length_range] at h2
        have : i + 2 < data.length := by omega
        simp only [List.getElem_take, List.getElem_drop, List.getElem_map, List.getElem_range,
          List.getD_eq_getElem?_getD, List.getElem?_eq_getElem this, Option.getD_some, Nat.add_comm 2 i]
    have e2 : ((List.range n).map (cordeauTripOf data L n)).map (fun t => t.trip.origin) ++
        ((List.range n).map (cordeauTripOf data L n)).map (fun t => t.trip.destination) =
        (List.range (2 * n)).map fun k => serviceOf (data.getD (k + 2) []) := by
      rw [show 2 * n = n + n by omega, List.range_add, List.map_append, List.map_map, List.map_map, List.map_map]
      congr 1
      apply List.map_congr_left
      intro k _
      show serviceOf (data.getD (k + 2 + n) []) = serviceOf (data.getD (n + k + 2) [])
      rw [show k + 2 + n = n + k + 2 by omega]
    rw [e1, e2, List.forall₂_map_left_iff, List.forall₂_map_right_iff, List.forall₂_same]
    intro k hk
    obtain ⟨row, _, h2, h3, _⟩ := hrow k (List.mem_range.1 hk)
    rw [h3]; exact h2
  · intro p
    rw [a.mem, List.mem_flatMap]
    simp only [Trip.positions, List.mem_cons, List.not_mem_nil, or_false]

/-- **C49, vehicles.** The loader makes the `m` declared vehicles, with distinct identifiers `0, ..., m - 1`,
based at the depot, with the header's capacity and maximum route duration. -/
theorem C49_vehicles {data : Rows} {m n : Nat} {T Q L dx dy : ℚ} (hd : CordeauData data m n T Q L dx dy)
    (s : SurfaceState D) :
    ∃ vs s', cordeauFleet data s = (.ok vs, s') ∧ vs.length = m ∧ (vs.map LoadedVehicle.identifier).Nodup ∧
      (∀ k v, vs[k]? = some v → v.identifier = decimal k ∧ v.vehicle.origin.position = [dx, dy] ∧
        v.vehicle.destination = v.vehicle.origin ∧ v.vehicle.capacity = Q ∧ v.vehicle.timeout = .fin T) ∧
      s'.cached = s.cached ∧ (∀ p, p ∈ s'.positions ↔ p ∈ s.positions ∨ p = [dx, dy]) := by
  obtain ⟨s', e, a⟩ := cordeauFleet_run hd s
  refine ⟨_, s', e, by simp, ?_, ?_, a.cached, fun p => by rw [a.mem, List.mem_singleton]⟩
  · rw [List.map_map]; exact ids_nodup _ decimal_injective m
  · intro k v hv
    obtain ⟨_, rfl⟩ := range_map_getElem? hv
    exact ⟨rfl, rfl, rfl, rfl, rfl⟩

/-- **C49, loads.** Whatever the data: if loading the trips succeeds, the rows paired for each trip exist and
unload exactly what was loaded. -/
theorem C49_loads_balance {data : Rows} {s s' : SurfaceState D} {trips : List LoadedTrip}
    (h : cordeauJob data s = (.ok trips, s')) (k : Nat) (hk : k < trips.length) :
    ∃ (row row' : List ℚ) (q : ℚ), data[k + 2]? = some row ∧ data[k + 2 + trips.length]? = some row' ∧ row[4]? = some q ∧
      row'[4]? = some (-q) := by
  unfold cordeauJob at h
  obtain ⟨row, s1, _, h⟩ := Py.bind_eq_ok.1 h
  obtain ⟨c, s2, _, h⟩ := Py.bind_eq_ok.1 h
  change Py.mapEach (List.range (pyInt (c / 2).floor).toNat) (fun idx => cordeauTrip data idx (pyInt (c / 2).floor).toNat) s2 =
    (Except.ok trips, s') at h
  generalize (pyInt (c / 2).floor).toNat = n at h
  have hf := mapEach_eq_ok h
  have hl : trips.length = n := by rw [← hf.length_eq, List.length_range]
  rw [hl] at hk ⊢
  obtain ⟨t1, t2, ht⟩ := (List.forall₂_iff_get.1 hf).2 k (by simpa using hk) (by omega)
  simp only [List.get_eq_getElem, List.getElem_range] at ht
  unfold cordeauTrip at ht
  obtain ⟨r1, _, h1, ht⟩ := Py.bind_eq_ok.1 ht
  obtain ⟨_, _, _, ht⟩ := Py.bind_eq_ok.1 ht
  obtain ⟨r2, _, h2, ht⟩ := Py.bind_eq_ok.1 ht
  obtain ⟨_, _, _, ht⟩ := Py.bind_eq_ok.1 ht
  obtain ⟨q, _, h3, ht⟩ := Py.bind_eq_ok.1 ht
  obtain ⟨q', _, h4, ht⟩ := Py.bind_eq_ok.1 ht
  obtain ⟨_, s5, h5, ht⟩ := Py.bind_eq_ok.1 ht
  have hq : q = -q' := by
    by_contra hne
    rw [decide_eq_false hne] at h5
    simp at h5
  exact ⟨r1, r2, q, (index_eq_ok h1).1, (index_eq_ok h2).1, (index_eq_ok h3).1, by rw [(index_eq_ok h4).1, hq, neg_neg]⟩

/-- A file with two vehicles and two requests. -/
def demoCordeau : Rows :=
  [[2, 4, 480, 6, 90],
   [0, 1, 2, 0, 0, 100, 1440],
   [1, 5, 6, 10, 1, 0, 1440],
   [2, 7, 8, 10, 2, 30, 60],
   [3, 9, 10, 10, -1, 40, 80],
   [4, 11, 12, 10, -2, 0, 1440]]

theorem demoCordeau_shape : CordeauData demoCordeau 2 2 480 6 90 1 2 where
  header := ⟨4, [], rfl, by norm_num, by norm_num⟩
  depot := ⟨0, _, rfl⟩
  requests := by
    intro k hk
    interval_cases k
    · exact ⟨_, _, _, _, _, _, _, rfl, ⟨_, _, rfl⟩⟩
    · exact ⟨_, _, _, _, _, _, _, rfl, ⟨_, _, rfl⟩⟩
    · exact ⟨_, _, _, _, _, _, _, rfl, ⟨_, _, rfl⟩⟩
    · exact ⟨_, _, _, _, _, _, _, rfl, ⟨_, _, rfl⟩⟩
  loads := by
    rintro k hk row row' q q' h1 h2 ⟨_, _, _, _, _, ⟨_, _, rfl⟩⟩ ⟨_, _, _, _, _, ⟨_, _, rfl⟩⟩
    interval_cases k <;> simp [demoCordeau] at h1 h2 <;> obtain ⟨_, _, _, _, h, _⟩ := h1 <;>
      obtain ⟨_, _, _, _, h', _⟩ := h2 <;> rw [← h, ← h'] <;> norm_num

example : ∃ trips s', cordeauJob demoCordeau (SurfaceState.new (D := ℚ) []) = (.ok trips, s') ∧ trips.length = 2 := by
  obtain ⟨trips, s', h1, h2, _⟩ := C49_requests_paired demoCordeau_shape (SurfaceState.new (D := ℚ) [])
  exact ⟨trips, s', h1, h2⟩

/-! ## C50 -/

/-- The full claim C50: loaded vehicles start and finish within the window of the depot row. -/
def DepotWindowKept (data : Rows) : Prop :=
  ∀ (vs : List LoadedVehicle) (s s' : SurfaceState ℚ), cordeauFleet data s = (.ok vs, s') →
    ∀ depot x y d q e l, data[1]? = some depot → RequestRow depot x y d q e l → ∀ v ∈ vs,
      v.vehicle.origin.earliest = e ∧ v.vehicle.origin.latest = .fin l

/-- C50 is false for every file with a complete depot row and at least one vehicle: the loaded vehicles have no
closing time at all. -/
theorem C50_depot_window_lost {data : Rows} {m n : Nat} {T Q L dx dy : ℚ} (hd : CordeauData data m n T Q L dx dy)
    (hm : 0 < m) {depot : List ℚ} {x y d q e l : ℚ} (hdep : data[1]? = some depot) (hr : RequestRow depot x y d q e l) :
    ¬ DepotWindowKept data := by
  intro h
  obtain ⟨s', e1, _⟩ := cordeauFleet_run hd (SurfaceState.new (D := ℚ) [])
  have hv : cordeauVehicleOf T Q dx dy 0 ∈ (List.range m).map (cordeauVehicleOf T Q dx dy) :=
    List.mem_map_of_mem (List.mem_range.2 hm)
  have := (h _ _ _ e1 depot x y d q e l hdep hr _ hv).2
  simp [cordeauVehicleOf] at this

example : ¬ DepotWindowKept demoCordeau :=
  C50_depot_window_lost demoCordeau_shape (by norm_num) (depot := [0, 1, 2, 0, 0, 100, 1440]) rfl ⟨_, _, rfl⟩

/-- What the loaded vehicles have instead, and why the claim is only partly true: they may start from time 0 on
and finish at any time, so a depot row that opens at time 0 is respected at the start. Missing: the opening time
of any other depot row, and every closing time. -/
theorem C50_depot_window_partial {data : Rows} {m n : Nat} {T Q L dx dy : ℚ} (hd : CordeauData data m n T Q L dx dy)
    (s : SurfaceState D) :
    ∃ vs s', cordeauFleet data s = (.ok vs, s') ∧ ∀ v ∈ vs, v.vehicle.origin.earliest = 0 ∧
      v.vehicle.origin.latest = .inf ∧ v.vehicle.origin.duration = 0 ∧ v.vehicle.destination = v.vehicle.origin := by
  obtain ⟨s', e, _⟩ := cordeauFleet_run hd s
  refine ⟨_, s', e, fun v hv => ?_⟩
  obtain ⟨k, _, rfl⟩ := List.mem_map.1 hv
  exact ⟨rfl, rfl, rfl, rfl⟩

/-! ## C51 -/

/-- **C51, rides.** From well-shaped HashCode data with `n` ride rows the loader makes `n` trips; trip `k` is
identified by `k` and has the coordinates, the earliest time and the bonus declared, one passenger and no limit
on the ride time. -/
theorem C51_one_trip_per_ride {data : Rows} {f n : Nat} {b T : ℚ} (hd : HashCodeData data f n b T)
    (s : SurfaceState D) :
    ∃ trips s', hashcodeJob data s = (.ok trips, s') ∧ trips.length = n ∧ (trips.map LoadedTrip.identifier).Nodup ∧
      (∀ k t, trips[k]? = some t → t.identifier = decimal k ∧ t.trip.onTimeBonus = b ∧ t.trip.capacity = 1 ∧
        t.trip.timeout = .inf ∧ ∃ row x1 y1 x2 y2 e l, data[k + 1]? = some row ∧ RideRow row x1 y1 x2 y2 e l ∧
          t.trip.origin.position = [x1, y1] ∧ t.trip.destination.position = [x2, y2] ∧ t.trip.origin.earliest = e ∧
          t.trip.origin.latest = .fin l ∧ t.trip.destination.earliest = 0 ∧ t.trip.destination.latest = .inf ∧
          t.trip.origin.duration = 0 ∧ t.trip.destination.duration = 0) ∧
      s'.cached = s.cached ∧
      (∀ p, p ∈ s'.positions ↔ p ∈ s.positions ∨
        ∃ t ∈ trips, p = t.trip.origin.position ∨ p = t.trip.destination.position) := by
  obtain ⟨s', e, a⟩ := hashcodeJob_run hd s
  refine ⟨_, s', e, by simp, ?_, ?_, a.cached, ?_⟩
  · rw [List.map_map]; exact ids_nodup _ decimal_injective n
  · intro k t ht
    obtain ⟨hk, rfl⟩ := range_map_getElem? ht
    obtain ⟨row, x1, y1, x2, y2, e, l, h1, h2⟩ := hd.rides k hk
    refine ⟨rfl, rfl, rfl, rfl, row, x1, y1, x2, y2, e, l, h1, h2, ?_⟩
    have hg : data.getD (k + 1) [] = row := by simp [List.getD_eq_getElem?_getD, h1]
    unfold hashcodeTripOf
    rw [hg, h2.shape]
    exact ⟨rfl, rfl, rfl, rfl, rfl, rfl, rfl, rfl⟩
  · intro p
    rw [a.mem, List.mem_flatMap]
    simp only [Trip.positions, List.mem_cons, List.not_mem_nil, or_false]

/-- **C51, vehicles.** The loader makes the declared number of vehicles, identified by `0, ..., f - 1`, based at
the origin, with room for one passenger, back by the horizon. -/
theorem C51_vehicles {data : Rows} {f n : Nat} {b T : ℚ} (hd : HashCodeData data f n b T) (s : SurfaceState D) :
    ∃ vs s', hashcodeFleet data s = (.ok vs, s') ∧ vs.length = f ∧ (vs.map LoadedVehicle.identifier).Nodup ∧
      (∀ k v, vs[k]? = some v → v.identifier = decimal k ∧ v.vehicle.origin.position = [0, 0] ∧
        v.vehicle.origin.earliest = 0 ∧ v.vehicle.origin.latest = .fin T ∧ v.vehicle.destination = v.vehicle.origin ∧
        v.vehicle.capacity = 1 ∧ v.vehicle.timeout = .inf) ∧
      s'.cached = s.cached ∧ (∀ p, p ∈ s'.positions ↔ p ∈ s.positions ∨ p = [0, 0]) := by
  obtain ⟨s', e, a⟩ := hashcodeFleet_run hd s
  refine ⟨_, s', e, by simp, ?_, ?_, a.cached, fun p => by rw [a.mem, List.mem_singleton]⟩
  · rw [List.map_map]; exact ids_nodup _ decimal_injective f
  · intro k v hv
    obtain ⟨_, rfl⟩ := range_map_getElem? hv
    exact ⟨rfl, rfl, rfl, rfl, rfl, rfl, rfl⟩

/-- **C51, malformed rides.** Whatever the data: if loading the trips succeeds, every row after the header has
exactly six numbers (a blank line at the end of the file is enough to make it raise). -/
theorem C51_rows_have_six {data : Rows} {s s' : SurfaceState D} {trips : List LoadedTrip}
    (h : hashcodeJob data s = (.ok trips, s')) : trips.length + 1 = data.length ∧ ∀ row ∈ data.drop 1, row.length = 6 := by
  unfold hashcodeJob at h
  obtain ⟨row, s1, h0, h⟩ := Py.bind_eq_ok.1 h
  obtain ⟨b, s2, _, h⟩ := Py.bind_eq_ok.1 h
  have hf := mapEach_eq_ok h
  have h0 := (List.getElem?_eq_some_iff.1 (index_eq_ok h0).1).1
  refine ⟨?_, ?_⟩
  · have := hf.length_eq
    simp only [List.length_zipIdx, List.length_drop] at this
    omega
  · intro row hrow
    obtain ⟨k, hk, rfl⟩ := List.getElem_of_mem hrow
    obtain ⟨t1, t2, ht⟩ := (List.forall₂_iff_get.1 hf).2 k (by simpa using hk)
      (by rw [← hf.length_eq]; simpa using hk)
    simp only [List.get_eq_getElem, List.getElem_zipIdx] at ht
    generalize (data.drop 1)[k] = row at ht
    match row, ht with
    | [_, _, _, _, _, _], _ => rfl
    | [], ht => cases ht
    | [_], ht => cases ht
    | [_, _], ht => cases ht
    | [_, _, _], ht => cases ht
    | [_, _, _, _], ht => cases ht
    | [_, _, _, _, _], ht => cases ht
    | _ :: _ :: _ :: _ :: _ :: _ :: _ :: _, ht => cases ht

/-- A file with two vehicles and two rides. -/
def demoHashCode : Rows := [[3, 4, 2, 2, 2, 10], [0, 1, 1, 3, 2, 3], [0, 0, 4, 0, 0, 9]]

theorem demoHashCode_shape : HashCodeData demoHashCode 2 2 2 10 where
  header := ⟨3, 4, 2, [], rfl⟩
  length := rfl
  rides := by
    intro k hk
    interval_cases k
    · exact ⟨_, _, _, _, _, _, _, rfl, ⟨rfl⟩⟩
    · exact ⟨_, _, _, _, _, _, _, rfl, ⟨rfl⟩⟩

example : ∃ trips s', hashcodeJob demoHashCode (SurfaceState.new (D := ℚ) []) = (.ok trips, s') ∧ trips.length = 2 := by
  obtain ⟨trips, s', h1, h2, _⟩ := C51_one_trip_per_ride demoHashCode_shape (SurfaceState.new (D := ℚ) [])
  exact ⟨trips, s', h1, h2⟩

/-! ## C52 -/

/-- The environment holds the trips and vehicles loaded from HashCode data. -/
structure LoadedHashCode (E : Env) (data : Rows) : Prop where
  metric : E.metric = manhattan
  trips : ∃ (trips : List LoadedTrip) (s s' : SurfaceState ℚ), hashcodeJob data s = (.ok trips, s') ∧
    ∀ k t, trips[k]? = some t → E.trip k = t.trip
  vehicles : ∃ (vs : List LoadedVehicle) (s s' : SurfaceState ℚ), hashcodeFleet data s = (.ok vs, s') ∧
    ∀ k v, vs[k]? = some v → E.vehicle k = v.vehicle

/-- The full claim C52: on a route that is well formed, has consistent memoised values and evaluates to feasible,
every loaded ride is delivered by the latest finish of its row (up to `ERROR_BOUND`). -/
def RidesFinishInTime (E : Env) (data : Rows) : Prop :=
  ∀ (h h' : Heap) (r : Nat), WellFormed h.core r → CachesAgree E h r → NoVerdicts h r →
    routeFeasible E r h = (.ok true, h') → ∀ (k : Nat) (v : Visit) (x : Tm) (t : Nat) (row : List ℚ) (x1 y1 x2 y2 e l : ℚ),
      (itinerary h.core r)[k]? = some v → (routeTimetable E h.core r)[k]? = some x → t ∈ v.drops →
      data[t + 1]? = some row → RideRow row x1 y1 x2 y2 e l → x.start ≤ l + errorBound

/-- The environment loaded from `demoHashCode`. -/
def demoHashCodeEnv : Env where
  metric := manhattan
  trip k := (hashcodeTripOf demoHashCode 2 k).trip
  vehicle _ := { origin := { position := [0, 0], latest := .fin 10 }, capacity := 1 }

theorem demoHashCodeEnv_loaded : LoadedHashCode demoHashCodeEnv demoHashCode where
  metric := rfl
  trips := by
    obtain ⟨s', e, _⟩ := hashcodeJob_run demoHashCode_shape (SurfaceState.new (D := ℚ) [])
    refine ⟨_, _, s', e, fun k t ht => ?_⟩
    rw [(range_map_getElem? ht).2]
    rfl
  vehicles := by
    obtain ⟨s', e, _⟩ := hashcodeFleet_run demoHashCode_shape (SurfaceState.new (D := ℚ) [])
    refine ⟨_, _, s', e, fun k v hv => ?_⟩
    rw [(range_map_getElem? hv).2]
    rfl

/-- Vehicle 0 serves ride 0: picked up at 2 (latest finish 3), delivered at 5. -/
def demoLate : Heap :=
  let h := ((newRoute demoHashCodeEnv 0 >>= fun r => compute demoHashCodeEnv true r [0] 0 1) Heap.empty).2
  { h with sfeas := fun _ => none, pfeas := fun _ => none, rfeas := fun _ => none }

/-- C52 is false: the loader puts the latest finish on the pickup service, so a ride picked up in time may be
delivered late on a route that evaluates to feasible. -/
theorem C52_late_delivery : ¬ RidesFinishInTime demoHashCodeEnv demoHashCode := by
  intro hp
  have := hp demoLate (routeFeasible demoHashCodeEnv 1 demoLate).2 1 (wfB_sound (by decide +kernel)) (agreeB_sound (by decide +kernel))
    ⟨rfl, fun _ _ => rfl, fun _ _ _ _ => rfl⟩ (Prod.ext (by decide +kernel) rfl) 2
    ((itinerary demoLate.core 1).getD 2 ⟨[], none, [], []⟩) ((routeTimetable demoHashCodeEnv demoLate.core 1).getD 2 ⟨0, 0, 0⟩)
    0 [0, 1, 1, 3, 2, 3] 0 1 1 3 2 3 (by decide +kernel) (by decide +kernel) (by decide +kernel) rfl ⟨rfl⟩
  revert this
  decide +kernel

/-- What does hold: on such a route every loaded ride is *picked up* by the latest finish of its row, and not
before its earliest start. Missing: the delivery. -/
theorem C52_rides_finish_partial {E : Env} {data : Rows} {f n : Nat} {b T : ℚ} (hd : HashCodeData data f n b T)
    (hE : EnvOK E) (hl : LoadedHashCode E data) (h h' : Heap) (r : Nat) (hw : WellFormed h.core r)
    (ha : CachesAgree E h r) (hn : NoVerdicts h r) (hf : routeFeasible E r h = (.ok true, h')) (k : Nat) (v : Visit)
    (x : Tm) (t : Nat) (row : List ℚ) (x1 y1 x2 y2 e l : ℚ) (hv : (itinerary h.core r)[k]? = some v)
    (hx : (routeTimetable E h.core r)[k]? = some x) (ht : t ∈ v.picks) (hrow : data[t + 1]? = some row)
    (hr : RideRow row x1 y1 x2 y2 e l) : x.start ≤ l + errorBound ∧ e ≤ x.start + errorBound := by
  obtain ⟨bb, h2, e1, e2, _⟩ := C18_feasible_iff_constraints hE h r hw ha hn
  rw [e1] at hf
  simp only [Prod.mk.injEq, Except.ok.injEq] at hf
  have hfe := e2.1 hf.1
  obtain ⟨s, hs, rfl⟩ : ∃ s, (h.core.route r).stops[k]? = some s ∧ visitOf h.core s = v := by
    unfold itinerary at hv
    rw [List.getElem?_map] at hv
    rcases hs : (h.core.route r).stops[k]? with _ | s
    · rw [hs] at hv; cases hv
    · rw [hs] at hv; exact ⟨s, rfl, Option.some.inj hv⟩
  obtain ⟨p, hp, rfl⟩ := List.mem_map.1 ht
  obtain ⟨hk, hks⟩ := List.getElem?_eq_some_iff.1 hs
  have hsplit : (h.core.route r).stops = (h.core.route r).stops.take k ++ s :: (h.core.route r).stops.drop (k + 1) := by
    rw [← hks, List.cons_getElem_drop_succ, List.take_append_drop]
  obtain ⟨_, _, d, hd1, _, hd2⟩ := hw.pick _ s _ hsplit p hp
  obtain ⟨j, hj⟩ := List.getElem?_of_mem (List.mem_of_mem_drop hd1)
  obtain ⟨a1, a2, a3⟩ := hw.toChained.timetable_idx (E := E) hs
  obtain ⟨b1, b2, b3⟩ := hw.toChained.timetable_idx (E := E) hj
  have hok := hfe.trips k j (visitOf h.core s) (visitOf h.core d) _ _ _ _ (h.core.pt p).trip hv
    (by unfold itinerary; rw [List.getElem?_map, hj]; rfl) a1 b1 a2 b2 ht (List.mem_map_of_mem hd2)
  have hxx := Option.some.inj (hx.symm.trans a1)
  rw [← hxx] at hok
  obtain ⟨trips, s0, s0', hj1, hj2⟩ := hl.trips
  obtain ⟨trips', s1', hj1', hlen, _, hspec, _⟩ := C51_one_trip_per_ride hd s0
  rw [hj1] at hj1'
  simp only [Prod.mk.injEq, Except.ok.injEq] at hj1'
  obtain ⟨rfl, _⟩ := hj1'
  have hlt : (h.core.pt p).trip < trips.length := by
    have := (List.getElem?_eq_some_iff.1 hrow).1
    rw [hd.length] at this
    omega
  have hget := List.getElem?_eq_getElem hlt
  obtain ⟨_, _, _, hto, row', _, _, _, _, _, _, hr1, hr2, _, _, hE1, hL1, _, hL2, _⟩ := hspec _ _ hget
  rw [hrow] at hr1
  obtain rfl := Option.some.inj hr1
  have heq := hr.shape.symm.trans hr2.shape
  simp only [List.cons.injEq, and_true] at heq
  obtain ⟨_, _, _, _, rfl, rfl⟩ := heq
  have hpl := hok.pickLatest
  have hpe := hok.pickEarliest
  rw [hj2 _ _ hget] at hpl hpe
  simp only [Trip.originLatest, hL1, hL2, Trip.originEarliest, hto, hE1, Bound.subQ, Bound.addQ, Bound.min, Bound.leQ,
    decide_eq_true_eq] at hpl hpe
  exact ⟨hpl, hpe⟩

example : EnvOK demoHashCodeEnv ∧ WellFormed demoLate.core 1 ∧ CachesAgree demoHashCodeEnv demoLate 1 ∧
    (routeFeasible demoHashCodeEnv 1 demoLate).1 = .ok true := by
  refine ⟨⟨manhattan_nonneg, fun _ => le_refl _, fun _ => le_refl _, fun _ => by norm_num [demoHashCodeEnv, hashcodeTripOf]⟩,
    wfB_sound (by decide +kernel), agreeB_sound (by decide +kernel), by decide +kernel⟩

/-! ## C67 -/

/-- What may happen to a loader and its file: one of the three properties is asked for (and returns or raises), or
somebody changes the file. -/
inductive LoaderStep (F : LoaderFormatter D) : LoaderState D → LoaderState D → Prop
  | job (s : LoaderState D) : LoaderStep F s (loaderJob F s).2
  | fleet (s : LoaderState D) : LoaderStep F s (loaderFleet F s).2
  | surface (s : LoaderState D) : LoaderStep F s (loaderSurface s).2
  | edit (s : LoaderState D) (c : Except Err Rows) : LoaderStep F s { s with content := c }

/-- Any number of steps. -/
abbrev LoaderSteps (F : LoaderFormatter D) := Relation.ReflTransGen (LoaderStep F)

/-- What is memoised stays, the file is read again only while nothing has been read successfully, and everything
memoised comes from the data memoised. -/
structure LoaderGrows (F : LoaderFormatter D) (s s' : LoaderState D) : Prop where
  formatter : ∀ d, s.formatter = some d → s'.formatter = some d ∧ s'.reads = s.reads
  fleet : ∀ v, s.fleet = some v → s'.fleet = some v
  job : ∀ j, s.job = some j → s'.job = some j
  positions : ∀ a, s.surface = some a → ∃ b, s'.surface = some b

/-- Everything memoised comes from the data memoised. -/
structure LoaderOK (F : LoaderFormatter D) (s : LoaderState D) : Prop where
  surface : ∀ a, s.surface = some a → ∃ d, s.formatter = some d
  fleet : ∀ v, s.fleet = some v → ∃ d a b, s.formatter = some d ∧ F.fleet d a = (.ok v, b)
  job : ∀ j, s.job = some j → ∃ d a b, s.formatter = some d ∧ F.job d a = (.ok j, b)

theorem LoaderGrows.refl (F : LoaderFormatter D) (s : LoaderState D) : LoaderGrows F s s :=
  ⟨fun _ h => ⟨h, rfl⟩, fun _ h => h, fun _ h => h, fun a h => ⟨a, h⟩⟩

theorem LoaderGrows.trans {F : LoaderFormatter D} {s s' s'' : LoaderState D} (h : LoaderGrows F s s')
    (h' : LoaderGrows F s' s'') : LoaderGrows F s s'' where
  formatter d hd := ⟨(h'.formatter d (h.formatter d hd).1).1, (h'.formatter d (h.formatter d hd).1).2.trans (h.formatter d hd).2⟩
  fleet v hv := h'.fleet v (h.fleet v hv)
  job j hj := h'.job j (h.job j hj)
  positions a ha := by obtain ⟨b, hb⟩ := h.positions a ha; exact h'.positions b hb

theorem loaderFormatter_run (F : LoaderFormatter D) (s : LoaderState D) (hs : LoaderOK F s) :
    LoaderGrows F s (loaderFormatter s).2 ∧ LoaderOK F (loaderFormatter s).2 ∧
      ((loaderFormatter s).2.fleet = s.fleet ∧ (loaderFormatter s).2.job = s.job) ∧
      (∀ d, (loaderFormatter s).1 = .ok d → (loaderFormatter s).2.formatter = some d) := by
  unfold loaderFormatter
  simp only [Py.read_bind]
  cases hf : s.formatter with
  | some d =>
    refine ⟨LoaderGrows.refl F s, hs, ⟨rfl, rfl⟩, fun d' h => ?_⟩
    simp only [Py.pure_run, Except.ok.injEq] at h
    rw [← h]; exact hf
  | none =>
    have hv : s.fleet = none := by
      cases h : s.fleet with
      | none => rfl
      | some v => obtain ⟨d, _, _, h1, _⟩ := hs.fleet v h; rw [hf] at h1; cases h1
    have hj : s.job = none := by
      cases h : s.job with
      | none => rfl
      | some v => obtain ⟨d, _, _, h1, _⟩ := hs.job v h; rw [hf] at h1; cases h1
    cases hc : s.content with
    | error e =>
      refine ⟨⟨?_, ?_, ?_, fun a ha => ⟨a, ha⟩⟩, ⟨hs.surface, hs.fleet, hs.job⟩, ⟨rfl, rfl⟩, ?_⟩
      · intro d hd; rw [hf] at hd; cases hd
      · intro v h; exact h
      · intro v h; exact h
      · intro d h; cases h
    | ok d0 =>
      refine ⟨⟨?_, ?_, ?_, fun a ha => ⟨a, ha⟩⟩, ⟨fun _ _ => ⟨d0, rfl⟩, ?_, ?_⟩, ⟨rfl, rfl⟩, ?_⟩
      · intro d hd; rw [hf] at hd; cases hd
      · intro v h; exact h
      · intro v h; exact h
      · intro v h; rw [show s.fleet = some v from h] at hv; cases hv
      · intro v h; rw [show s.job = some v from h] at hj; cases hj
      · intro d h
        have : d0 = d := Except.ok.inj h
        rw [← this]; rfl

theorem loaderSurface_run (F : LoaderFormatter D) (s : LoaderState D) (hs : LoaderOK F s) :
    LoaderGrows F s (loaderSurface s).2 ∧ LoaderOK F (loaderSurface s).2 ∧
      ((loaderSurface s).2.fleet = s.fleet ∧ (loaderSurface s).2.job = s.job) := by
  unfold loaderSurface
  simp only [Py.read_bind]
  cases hf : s.surface with
  | some a => exact ⟨LoaderGrows.refl F s, hs, rfl, rfl⟩
  | none =>
    obtain ⟨g, ok, q, hd⟩ := loaderFormatter_run F s hs
    rcases hr : loaderFormatter s with ⟨r, s1⟩
    rw [hr] at g ok hd q
    cases r with
    | error e =>
      simp only [Py.bind_error hr]
      exact ⟨g, ok, q⟩
    | ok d =>
      simp only [Py.bind_ok hr]
      exact ⟨g.trans ⟨fun _ h => ⟨h, rfl⟩, fun _ h => h, fun _ h => h, fun _ _ => ⟨_, rfl⟩⟩,
        ⟨fun _ _ => ⟨d, hd d rfl⟩, ok.fleet, ok.job⟩, q⟩

theorem onSurface_run {α : Type} (F : LoaderFormatter D) (f : Py (SurfaceState D) α) (s : LoaderState D) (hs : LoaderOK F s) :
    LoaderGrows F s (onSurface f s).2 ∧ LoaderOK F (onSurface f s).2 ∧
      ((onSurface f s).2.fleet = s.fleet ∧ (onSurface f s).2.job = s.job) ∧
      (∀ x, (onSurface f s).1 = .ok x → ∃ a b, f a = (.ok x, b)) := by
  unfold onSurface
  cases hf : s.surface with
  | none => exact ⟨LoaderGrows.refl F s, hs, ⟨rfl, rfl⟩, fun _ h => by cases h⟩
  | some a =>
    exact ⟨⟨fun _ h => ⟨h, rfl⟩, fun _ h => h, fun _ h => h, fun _ _ => ⟨_, rfl⟩⟩,
      ⟨fun _ _ => hs.surface a hf, hs.fleet, hs.job⟩, ⟨rfl, rfl⟩, fun x h => ⟨a, (f a).2, Prod.ext h rfl⟩⟩

/-- The common part of `fleet` and `job`: data, surface, then a formatter method. -/
def loaderCall {α : Type} (f : Rows → Py (SurfaceState D) α) : Py (LoaderState D) α := do
  let data ← loaderFormatter
  let _ ← loaderSurface
  onSurface (f data)

theorem loaderCall_run {α : Type} (F : LoaderFormatter D) (f : Rows → Py (SurfaceState D) α) (s : LoaderState D)
    (hs : LoaderOK F s) :
    LoaderGrows F s (loaderCall f s).2 ∧ LoaderOK F (loaderCall f s).2 ∧
      ((loaderCall f s).2.fleet = s.fleet ∧ (loaderCall f s).2.job = s.job) ∧
      (∀ x, (loaderCall f s).1 = .ok x → ∃ d a b, (loaderCall f s).2.formatter = some d ∧ f d a = (.ok x, b)) := by
  unfold loaderCall
  obtain ⟨g1, ok1, q1, hd1⟩ := loaderFormatter_run F s hs
  rcases hr1 : loaderFormatter s with ⟨r1, s1⟩
  rw [hr1] at g1 ok1 hd1 q1
  cases r1 with
  | error e => simp only [Py.bind_error hr1]; exact ⟨g1, ok1, q1, fun _ h => by cases h⟩
  | ok d =>
    simp only [Py.bind_ok hr1]
    obtain ⟨g2, ok2, q2⟩ := loaderSurface_run F s1 ok1
    rcases hr2 : loaderSurface s1 with ⟨r2, s2⟩
    rw [hr2] at g2 ok2 q2
    cases r2 with
    | error e =>
      simp only [Py.bind_error hr2]
      exact ⟨g1.trans g2, ok2, ⟨q2.1.trans q1.1, q2.2.trans q1.2⟩, fun _ h => by cases h⟩
    | ok a =>
      simp only [Py.bind_ok hr2]
      obtain ⟨g3, ok3, q3, hd3⟩ := onSurface_run F (f d) s2 ok2
      refine ⟨(g1.trans g2).trans g3, ok3, ⟨q3.1.trans (q2.1.trans q1.1), q3.2.trans (q2.2.trans q1.2)⟩, fun x hx => ?_⟩
      obtain ⟨a, b, hab⟩ := hd3 x hx
      exact ⟨d, a, b, (g3.formatter d (g2.formatter d (hd1 d rfl)).1).1, hab⟩

theorem loaderFleet_eq (F : LoaderFormatter D) (s : LoaderState D) : loaderFleet F s =
    match s.fleet with
    | some v => (.ok v, s)
    | none => (loaderCall F.fleet >>= fun v => Py.modify (fun s => { s with fleet := some v }) >>= fun _ => pure v) s := by
  unfold loaderFleet loaderCall
  simp only [Py.read_bind]
  cases s.fleet with
  | some v => rfl
  | none =>
    simp only [Py.bind_run]
    rcases loaderFormatter s with ⟨_ | d, s1⟩
    · rfl
    · simp only
      rcases loaderSurface s1 with ⟨_ | a, s2⟩ <;> rfl

theorem loaderJob_eq (F : LoaderFormatter D) (s : LoaderState D) : loaderJob F s =
    match s.job with
    | some v => (.ok v, s)
    | none => (loaderCall F.job >>= fun v => Py.modify (fun s => { s with job := some v }) >>= fun _ => pure v) s := by
  unfold loaderJob loaderCall
  simp only [Py.read_bind]
  cases s.job with
  | some v => rfl
  | none =>
    simp only [Py.bind_run]
    rcases loaderFormatter s with ⟨_ | d, s1⟩
    · rfl
    · simp only
      rcases loaderSurface s1 with ⟨_ | a, s2⟩ <;> rfl

theorem loaderFleet_run (F : LoaderFormatter D) (s : LoaderState D) (hs : LoaderOK F s) :
    LoaderGrows F s (loaderFleet F s).2 ∧ LoaderOK F (loaderFleet F s).2 ∧
      (∀ v, (loaderFleet F s).1 = .ok v → (loaderFleet F s).2.fleet = some v) := by
  rw [loaderFleet_eq]
  cases hf : s.fleet with
  | some v => exact ⟨LoaderGrows.refl F s, hs, fun w h => by rw [← Except.ok.inj h]; exact hf⟩
  | none =>
    obtain ⟨g, ok, q, hd⟩ := loaderCall_run F F.fleet s hs
    simp only
    rcases hr : loaderCall F.fleet s with ⟨r, s1⟩
    rw [hr] at g ok q hd
    cases r with
    | error e => simp only [Py.bind_error hr]; exact ⟨g, ok, fun _ h => by cases h⟩
    | ok v =>
      simp only [Py.bind_ok hr]
      obtain ⟨d, a, b, h1, h2⟩ := hd v rfl
      refine ⟨g.trans ⟨fun _ h => ⟨h, rfl⟩, fun w hw => ?_, fun _ h => h, fun a h => ⟨a, h⟩⟩,
        ⟨ok.surface, fun w hw => ⟨d, a, b, h1, Option.some.inj hw ▸ h2⟩, ok.job⟩, fun w hw => ?_⟩
      · rw [q.1, hf] at hw; cases hw
      · rw [← Except.ok.inj hw]; rfl

theorem loaderJob_run (F : LoaderFormatter D) (s : LoaderState D) (hs : LoaderOK F s) :
    LoaderGrows F s (loaderJob F s).2 ∧ LoaderOK F (loaderJob F s).2 ∧
      (∀ v, (loaderJob F s).1 = .ok v → (loaderJob F s).2.job = some v) := by
  rw [loaderJob_eq]
  cases hf : s.job with
  | some v => exact ⟨LoaderGrows.refl F s, hs, fun w h => by rw [← Except.ok.inj h]; exact hf⟩
  | none =>
    obtain ⟨g, ok, q, hd⟩ := loaderCall_run F F.job s hs
    simp only
    rcases hr : loaderCall F.job s with ⟨r, s1⟩
    rw [hr] at g ok q hd
    cases r with
    | error e => simp only [Py.bind_error hr]; exact ⟨g, ok, fun _ h => by cases h⟩
    | ok v =>
      simp only [Py.bind_ok hr]
      obtain ⟨d, a, b, h1, h2⟩ := hd v rfl
      refine ⟨g.trans ⟨fun _ h => ⟨h, rfl⟩, fun _ h => h, fun w hw => ?_, fun a h => ⟨a, h⟩⟩,
        ⟨ok.surface, ok.fleet, fun w hw => ⟨d, a, b, h1, Option.some.inj hw ▸ h2⟩⟩, fun w hw => ?_⟩
      · rw [q.2, hf] at hw; cases hw
      · rw [← Except.ok.inj hw]; rfl

theorem loaderSteps_grow {F : LoaderFormatter D} {s s' : LoaderState D} (h : LoaderSteps F s s') (hs : LoaderOK F s) :
    LoaderGrows F s s' ∧ LoaderOK F s' := by
  induction h with
  | refl => exact ⟨LoaderGrows.refl F s, hs⟩
  | tail _ st ih =>
    obtain ⟨g, ok⟩ := ih
    cases st with
    | job => exact ⟨g.trans (loaderJob_run F _ ok).1, (loaderJob_run F _ ok).2.1⟩
    | fleet => exact ⟨g.trans (loaderFleet_run F _ ok).1, (loaderFleet_run F _ ok).2.1⟩
    | surface => exact ⟨g.trans (loaderSurface_run F _ ok).1, (loaderSurface_run F _ ok).2.1⟩
    | edit => exact ⟨g.trans ⟨fun _ h => ⟨h, rfl⟩, fun _ h => h, fun _ h => h, fun a h => ⟨a, h⟩⟩, ok.surface, ok.fleet, ok.job⟩

/-- A loader just constructed. -/
def LoaderState.new (c : Except Err Rows) : LoaderState D := { content := c }

theorem LoaderState.new_ok (F : LoaderFormatter D) (c : Except Err Rows) : LoaderOK F (LoaderState.new (D := D) c) where
  surface _ h := by cases h
  fleet _ h := by cases h
  job _ h := by cases h

/-- **C67, trips.** Once a loader has returned a job it returns the same job for ever, without reading the file
again, whatever happens to the file in between. -/
theorem C67_job_loaded_once (F : LoaderFormatter D) (c : Except Err Rows) {s s1 s2 : LoaderState D} {j : List LoadedTrip}
    (h0 : LoaderSteps F (LoaderState.new c) s) (h1 : loaderJob F s = (.ok j, s1)) (h2 : LoaderSteps F s1 s2) :
    loaderJob F s2 = (.ok j, s2) ∧ s2.reads = s1.reads := by
  have ok := (loaderSteps_grow h0 (LoaderState.new_ok F c)).2
  obtain ⟨g1, ok1, hj⟩ := loaderJob_run F s ok
  rw [h1] at g1 ok1 hj
  obtain ⟨g2, ok2⟩ := loaderSteps_grow h2 ok1
  have hj2 := g2.job j (hj j rfl)
  obtain ⟨d, _, _, hd, _⟩ := ok1.job j (hj j rfl)
  exact ⟨by rw [loaderJob_eq, hj2], (g2.formatter d hd).2⟩

/-- **C67, vehicles.** The same for the fleet. -/
theorem C67_fleet_loaded_once (F : LoaderFormatter D) (c : Except Err Rows) {s s1 s2 : LoaderState D} {v : List LoadedVehicle}
    (h0 : LoaderSteps F (LoaderState.new c) s) (h1 : loaderFleet F s = (.ok v, s1)) (h2 : LoaderSteps F s1 s2) :
    loaderFleet F s2 = (.ok v, s2) ∧ s2.reads = s1.reads := by
  have ok := (loaderSteps_grow h0 (LoaderState.new_ok F c)).2
  obtain ⟨g1, ok1, hj⟩ := loaderFleet_run F s ok
  rw [h1] at g1 ok1 hj
  obtain ⟨g2, ok2⟩ := loaderSteps_grow h2 ok1
  have hj2 := g2.fleet v (hj v rfl)
  obtain ⟨d, _, _, hd, _⟩ := ok1.fleet v (hj v rfl)
  exact ⟨by rw [loaderFleet_eq, hj2], (g2.formatter d hd).2⟩

/-- **C67, same instance.** The job and the fleet a loader returns come from the same data, even if the file was
changed between the two calls. -/
theorem C67_same_data (F : LoaderFormatter D) (c : Except Err Rows) {s s1 s2 s3 : LoaderState D} {j : List LoadedTrip}
    {v : List LoadedVehicle} (h0 : LoaderSteps F (LoaderState.new c) s) (h1 : loaderJob F s = (.ok j, s1))
    (h2 : LoaderSteps F s1 s2) (h3 : loaderFleet F s2 = (.ok v, s3)) :
    ∃ data a b a' b', F.job data a = (.ok j, b) ∧ F.fleet data a' = (.ok v, b') := by
  have ok := (loaderSteps_grow h0 (LoaderState.new_ok F c)).2
  obtain ⟨g1, ok1, hj⟩ := loaderJob_run F s ok
  rw [h1] at g1 ok1 hj
  obtain ⟨g2, ok2⟩ := loaderSteps_grow h2 ok1
  obtain ⟨g3, ok3, hv⟩ := loaderFleet_run F s2 ok2
  rw [h3] at g3 ok3 hv
  obtain ⟨d, a, b, hd, hab⟩ := ok1.job j (hj j rfl)
  obtain ⟨d', a', b', hd', hab'⟩ := ok3.fleet v (hv v rfl)
  have := (g3.formatter d (g2.formatter d hd).1).1
  rw [hd'] at this
  obtain rfl := Option.some.inj this
  exact ⟨d', a, b, a', b', hab, hab'⟩

/-- The job is loaded, the file is replaced, the fleet is loaded: both come from the first file. -/
example :
    let s1 := (loaderJob (cordeauFormatter ℚ) (LoaderState.new (.ok demoCordeau))).2
    let s2 := loaderFleet (cordeauFormatter ℚ) { s1 with content := .ok [] }
    (loaderJob (cordeauFormatter ℚ) (LoaderState.new (.ok demoCordeau))).1.toOption.map List.length = some 2 ∧
      s2.1.toOption.map List.length = some 2 ∧ s2.2.reads = 1 := by
  decide +kernel

end Jinete
