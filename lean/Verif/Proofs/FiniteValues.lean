import Verif.Proofs.Whole
import Mathlib.Data.Set.Finite.List

/-!
# Finitely many values

Moving trips of a job around, the routes only ever visit positions of the trips and the ones they started with, and they
have bounded length. So the Dial-a-Ride objective takes finitely many values. The Hash Code objective does, as it only
depends on the trips served and on which of them are left on time.
-/

set_option autoImplicit false

namespace Jinete

variable {E : Env} {fleet job : List Nat} {W : List Nat → Prop} {md : Mode}

/-- A duty that serves nothing. -/
def Duty.idle (d : Duty) : Bool := d.picks.isEmpty && d.drops.isEmpty

/-- Duties of `A` only, at most `m` of which serve nothing. -/
def Within (A : List Duty) (m : Nat) (ds : List Duty) : Prop := (∀ d ∈ ds, d ∈ A) ∧ ds.countP Duty.idle ≤ m

theorem within_movable {A : List Duty} {m : Nat} (hA : ∀ t ∈ job, pickDuty E t ∈ A ∧ dropDuty E t ∈ A) : Movable E job fun _ => Within A m where
  insert v ds t i j h ht hij hj := by
    have e : ds.take (i + 1) ++ ((ds.take j).drop (i + 1) ++ ds.drop j) = ds := by
      have h0 : ds.take (i + 1) = (ds.take j).take (i + 1) := by rw [List.take_take]; congr 1; omega
      rw [← List.append_assoc, h0, List.take_append_drop, List.take_append_drop]
    refine ⟨fun d hd => ?_, ?_⟩
    · unfold withTrip at hd
      simp only [List.mem_append, List.mem_cons] at hd
      rcases hd with hd | rfl | hd | rfl | hd
      · exact h.1 d (List.mem_of_mem_take hd)
      · exact (hA t ht).1
      · exact h.1 d (List.mem_of_mem_take (List.mem_of_mem_drop hd))
      · exact (hA t ht).2
      · exact h.1 d (List.mem_of_mem_drop hd)
    · have hc := h.2
      rw [← e, List.countP_append, List.countP_append] at hc
      unfold withTrip
      rw [List.countP_append, List.countP_cons, List.countP_append, List.countP_cons]
      simp [Duty.idle, pickDuty, dropDuty] at hc ⊢
      omega
  remove v ds t h := ⟨fun d hd => h.1 d (List.mem_filter.1 hd).1, le_trans (List.filter_sublist.countP_le) h.2⟩

/-- A list is no longer than the idle duties and what the others serve. -/
theorem length_le_served (ds : List Duty) :
    ds.length ≤ ds.countP Duty.idle + (ds.flatMap Duty.picks).length + (ds.flatMap Duty.drops).length := by
  induction ds with
  | nil => simp
  | cons d ds ih =>
    simp only [List.length_cons, List.countP_cons, List.flatMap_cons, List.length_append]
    by_cases hd : d.idle = true
    · rw [if_pos hd]; omega
    · rw [if_neg hd]
      have : 0 < d.picks.length + d.drops.length := by
        by_contra hc
        have h1 : d.picks = [] := List.length_eq_zero_iff.1 (by omega)
        have h2 : d.drops = [] := List.length_eq_zero_iff.1 (by omega)
        exact hd (by simp [Duty.idle, h1, h2])
      omega

/-- As many deliveries as pickups, at most. -/
theorem drops_le_picks {c : Core} {r : Nat} (hw : WellFormed c r) :
    ((duties c r).flatMap Duty.drops).length ≤ ((duties c r).flatMap Duty.picks).length := by
  have e1 : ((duties c r).flatMap Duty.drops).length = ((c.route r).stops.flatMap fun s => (c.stop s).deliveries).length := by
    simp [duties, itinerary, visitOf, Visit.duty, List.length_flatMap, Function.comp_def]
  have e2 : ((duties c r).flatMap Duty.picks).length = ((c.route r).stops.flatMap fun s => (c.stop s).pickups).length := by
    simp [duties, itinerary, visitOf, Visit.duty, List.length_flatMap, Function.comp_def]
  rw [e1, e2]
  have hd : ∀ s ∈ (c.route r).stops, ∀ p ∈ (c.stop s).deliveries, (c.pt p).delivery = some s ∧
      ∃ u ∈ (c.route r).stops, p ∈ (c.stop u).pickups := by
    intro s hs p hp
    obtain ⟨pre, suf, e⟩ := List.append_of_mem hs
    obtain ⟨_, h2, u, hu, _, h3⟩ := hw.drop pre s suf e p hp
    exact ⟨h2, u, by rw [e]; exact List.mem_append_left _ hu, h3⟩
  have nd : ((c.route r).stops.flatMap fun s => (c.stop s).deliveries).Nodup := by
    rw [List.nodup_flatMap]
    refine ⟨fun s hs => (hw.sets s hs).2, ?_⟩
    refine hw.nodup.imp_of_mem fun {a b} ha hb hne => ?_
    intro p hp hp'
    have h1 := (hd a ha p hp).1
    rw [(hd b hb p hp').1] at h1
    exact hne (Option.some.inj h1).symm
  refine (nd.subperm fun p hp => ?_).length_le
  obtain ⟨s, hs, hps⟩ := List.mem_flatMap.1 hp
  obtain ⟨_, u, hu, h⟩ := hd s hs p hps
  exact List.mem_flatMap.2 ⟨u, hu, h⟩

theorem finite_lists {α : Type} {s : Set α} (hs : s.Finite) (n : Nat) : {l : List α | l.length ≤ n ∧ ∀ x ∈ l, x ∈ s}.Finite := by
  have : Finite s := hs
  refine ((List.finite_length_le s n).image (List.map Subtype.val)).subset ?_
  rintro l ⟨h1, h2⟩
  exact ⟨l.attach.map fun x => ⟨x.1, h2 x.1 x.2⟩, by simpa using h1, by simp [List.map_map, Function.comp_def]⟩

/-- The value of a planning from vehicles and duties. -/
def dutyValue (E : Env) (l : List (Nat × List Duty)) : List ℚ :=
  [(l.map fun x => ((x.2.flatMap Duty.picks).length : ℚ)).sum,
   (l.map fun x => - tourLength E (E.vehicle x.1).origin.position (x.2.map Duty.pos)).sum]

theorem planningValue_duties (c : Core) (rs : List Nat) : planningValue E .dialARide (rs.map (planOf E c)) =
    dutyValue E (rs.map fun r => ((c.route r).vehicle, duties c r)) := by
  simp [planningValue, columnSums, Objective.dim, routeValue, dutyValue, List.map_map, Function.comp_def, List.range_succ, planOf, duties,
    Visit.duty]

/-- The Hash Code value of a planning from the trips served and which of them are left on time. -/
def onTimeValue (E : Env) (l : List (List (Nat × Bool))) : List ℚ :=
  [(l.map fun x => ((x.filter fun y => decide ((E.trip y.1).capacity ≠ 0)).map fun y =>
    (E.trip y.1).distance E.metric + if y.2 then (E.trip y.1).onTimeBonus else 0).sum).sum]

/-- A ride, and whether it is left on time. -/
def Ride.onTime (E : Env) (x : Ride) : Nat × Bool := (x.trip, decide (x.pick = (E.trip x.trip).originEarliest))

theorem planningValue_onTime (c : Core) (rs : List Nat) : planningValue E .hashCode (rs.map (planOf E c)) =
    onTimeValue E (rs.map fun r => (rides E (planOf E c r).1 (planOf E c r).2).map (Ride.onTime E)) := by
  simp [planningValue, columnSums, Objective.dim, routeValue, onTimeValue, List.map_map, Function.comp_def, List.range_succ, List.filter_map,
    Ride.onTime, -List.sum_map_add]
  rfl

theorem rides_map_trips (veh : Vehicle) (l : List Visit) : (rides E veh l).map Ride.trip = l.flatMap Visit.picks := by
  have : ∀ (z : List (Visit × Tm)) (f : Visit × Tm → Nat → Ride), (∀ x t, (f x t).trip = t) →
      (z.flatMap fun x => x.1.picks.map (f x)).map Ride.trip = (z.map Prod.fst).flatMap Visit.picks := by
    intro z f hf
    induction z with
    | nil => rfl
    | cons x z ih => simp [ih, Function.comp_def, hf]
  unfold rides ridesOf
  rw [this _ _ fun _ _ => rfl, List.map_fst_zip (by simp [vehicleTimetable])]

/-- The plannings that only use given duties have finitely many Dial-a-Ride values and finitely many Hash Code values. -/
theorem finite_values (E : Env) (fleet job : List Nat) (A : List Duty) (m : Nat) {k : Objective} (hk : k ≠ .taxiSharing) : ∃ values : Finset (List ℚ),
    ∀ W md h rs, PlanInv E fleet job W (fun _ => Within A m) md h rs → planningValue E k (rs.map (planOf E h.core)) ∈ values := by
  cases k with
  | taxiSharing => exact absurd rfl hk
  | dialARide =>
    have f1 := finite_lists (A.finite_toSet) (m + 2 * job.length)
    have f2 := finite_lists ((fleet.finite_toSet).prod f1) fleet.length
    refine ⟨(f2.image (dutyValue E)).toFinset, ?_⟩
    intro W md h rs p
    rw [Set.Finite.mem_toFinset, planningValue_duties]
    refine ⟨_, ⟨?_, ?_⟩, rfl⟩
    · rw [List.length_map]
      have := p.vehicles.length_eq
      rw [List.length_map] at this
      exact this.le
    · intro x hx
      obtain ⟨r, hr, rfl⟩ := List.mem_map.1 hx
      refine ⟨p.vehicles.mem_iff.1 (List.mem_map.2 ⟨r, hr, rfl⟩), ?_, (p.kept r hr).1⟩
      have h1 := length_le_served (duties h.core r)
      have h2 := drops_le_picks (p.wf r hr)
      have h3 : ((duties h.core r).flatMap Duty.picks).length ≤ job.length := by
        rw [← picks_duties]
        exact ((p.wf r hr).trips.subperm fun t ht => p.job t (List.mem_flatMap.2 ⟨r, hr, ht⟩)).length_le
      have h4 := (p.kept r hr).2
      show (duties h.core r).length ≤ _
      omega
  | hashCode =>
    have f1 := finite_lists ((job.finite_toSet).prod (Set.finite_univ (α := Bool))) job.length
    have f2 := finite_lists f1 fleet.length
    refine ⟨(f2.image (onTimeValue E)).toFinset, ?_⟩
    intro W md h rs p
    rw [Set.Finite.mem_toFinset, planningValue_onTime]
    refine ⟨_, ⟨?_, ?_⟩, rfl⟩
    · rw [List.length_map]
      have := p.vehicles.length_eq
      rw [List.length_map] at this
      exact this.le
    · intro x hx
      obtain ⟨r, hr, rfl⟩ := List.mem_map.1 hx
      have ht := rides_map_trips (E := E) (planOf E h.core r).1 (planOf E h.core r).2
      refine ⟨?_, ?_⟩
      · have h3 : (tripsOf h.core r).length ≤ job.length :=
          ((p.wf r hr).trips.subperm fun t ht => p.job t (List.mem_flatMap.2 ⟨r, hr, ht⟩)).length_le
        have := congrArg List.length ht
        rw [List.length_map] at this ⊢
        rw [this]
        exact h3
      · intro y hy
        obtain ⟨z, hz, rfl⟩ := List.mem_map.1 hy
        refine ⟨p.job z.trip (List.mem_flatMap.2 ⟨r, hr, ?_⟩), trivial⟩
        show z.trip ∈ (planOf E h.core r).2.flatMap Visit.picks
        rw [← ht]
        exact List.mem_map_of_mem hz

end Jinete
