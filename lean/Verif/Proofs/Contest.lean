import Verif.Spec.Contest
import Verif.Spec.Whole
import Verif.Proofs.WellFormed

/-!
# Rides one at a time, and what they earn at the contest
-/

set_option autoImplicit false

namespace Jinete

variable {E : Env}

/-! ## Loads -/

theorem tripsCapacity_ones {l : List Nat} (h : ∀ t ∈ l, (E.trip t).capacity = 1) : tripsCapacity E l = l.length := by
  induction l with
  | nil => simp [tripsCapacity]
  | cons a l ih =>
    have h1 : tripsCapacity E (a :: l) = (E.trip a).capacity + tripsCapacity E l := by simp [tripsCapacity]
    rw [h1, ih fun t ht => h t (List.mem_cons_of_mem _ ht), h a (by simp), List.length_cons]
    push_cast
    ring

/-! ## One at a time -/

/-- The visits of rides served one after the other. -/
inductive OneByOne (E : Env) : List Visit → List Nat → Prop
  | nil : OneByOne E [] []
  | ride {v w : Visit} {k : Nat} {l : List Visit} {ks : List Nat} : v.duty = pickDuty E k → w.duty = dropDuty E k →
      OneByOne E l ks → OneByOne E (v :: w :: l) (k :: ks)

theorem Visit.duty_eq {v : Visit} {d : Duty} (h : v.duty = d) : v.pos = d.pos ∧ v.picks = d.picks ∧ v.drops = d.drops := by
  subst h
  exact ⟨rfl, rfl, rfl⟩

theorem oneByOne_of {l : List Visit} (hok : ItinOK l) (hcap : ∀ t ∈ l.flatMap Visit.picks, (E.trip t).capacity = 1)
    (hload : ∀ a v b, l = a ++ v :: b → v.picks ≠ [] → loadAfter E 0 (a ++ [v]) < 2) {post : List Visit} (hpost : post.flatMap Visit.drops = []) :
    ∀ (suf pre : List Visit), l = pre ++ (suf ++ post) → (∀ v ∈ suf, ∃ t, v.duty = pickDuty E t ∨ v.duty = dropDuty E t) →
      ((pre.flatMap Visit.picks).Perm (pre.flatMap Visit.drops) → OneByOne E suf (suf.flatMap Visit.picks)) ∧
      ∀ k, (pre.flatMap Visit.picks).Perm (k :: pre.flatMap Visit.drops) →
        ∃ w suf', suf = w :: suf' ∧ w.duty = dropDuty E k ∧ OneByOne E suf' (suf'.flatMap Visit.picks) := by
  intro suf
  induction suf with
  | nil =>
    intro pre e _
    refine ⟨fun _ => .nil, fun k hk => ?_⟩
    exfalso
    have hk' : k ∈ pre.flatMap Visit.picks := hk.mem_iff.2 (by simp)
    obtain ⟨v, hv, hkv⟩ := List.mem_flatMap.1 hk'
    obtain ⟨a, b, rfl⟩ := List.append_of_mem hv
    have h1 := hok.pickBefore a v (b ++ post) (by rw [e]; simp) k hkv
    rw [List.flatMap_append, hpost, List.append_nil] at h1
    have h2 : (k :: (a ++ v :: b).flatMap Visit.drops).Nodup := by
      refine hk.nodup_iff.1 ?_
      have := hok.picks
      rw [e, List.flatMap_append] at this
      exact (List.nodup_append.1 this).1
    exact (List.nodup_cons.1 h2).1 (by
      rw [List.flatMap_append, List.flatMap_cons]
      exact List.mem_append_right _ (List.mem_append_right _ h1))
  | cons v suf ih =>
    intro pre e hs
    have e' : l = (pre ++ [v]) ++ (suf ++ post) := by rw [e]; simp
    obtain ⟨ih1, ih2⟩ := ih (pre ++ [v]) e' fun w hw => hs w (List.mem_cons_of_mem _ hw)
    rw [List.flatMap_append, List.flatMap_append] at ih1 ih2
    obtain ⟨t, ht⟩ := hs v (by simp)
    have hdn : ((pre ++ [v]).flatMap Visit.drops).Nodup := by
      have := hok.drops
      rw [e', List.flatMap_append] at this
      exact (List.nodup_append.1 this).1
    rw [List.flatMap_append, List.nodup_append] at hdn
    constructor
    · intro hp
      rcases ht with ht | ht
      · obtain ⟨_, h1, h2⟩ := Visit.duty_eq ht
        simp only [pickDuty] at h1 h2
        simp only [List.flatMap_cons, List.flatMap_nil, List.append_nil, h1, h2] at ih2
        obtain ⟨w, suf', rfl, hw, h3⟩ := ih2 t ((hp.append_right [t]).trans List.perm_append_comm)
        have := Visit.duty_eq hw
        simp only [List.flatMap_cons, h1, this.2.1, dropDuty, List.nil_append, List.singleton_append]
        exact .ride ht hw h3
      · exfalso
        obtain ⟨_, h1, h2⟩ := Visit.duty_eq ht
        simp only [dropDuty] at h1 h2
        have h3 := hok.dropAfter pre v (suf ++ post) (by rw [e]; simp) t (by simp [h2])
        exact hdn.2.2 t (hp.mem_iff.1 h3) t (by simp [h2]) rfl
    · intro k hk
      rcases ht with ht | ht
      · exfalso
        obtain ⟨_, h1, h2⟩ := Visit.duty_eq ht
        simp only [pickDuty] at h1 h2
        have hsub : ∀ x ∈ (pre ++ [v]).flatMap Visit.picks, x ∈ l.flatMap Visit.picks := by
          intro x hx
          rw [e', List.flatMap_append]
          exact List.mem_append_left _ hx
        have h3 := hload pre v (suf ++ post) (by rw [e]; simp) (by simp [h1])
        have h4 : ∀ x ∈ (pre ++ [v]).flatMap Visit.drops, (E.trip x).capacity = 1 := by
          intro x hx
          rw [List.flatMap_append, List.flatMap_cons, List.flatMap_nil, h2, List.append_nil, List.append_nil] at hx
          exact hcap x (hsub x (by
            rw [List.flatMap_append]
            exact List.mem_append_left _ (hk.mem_iff.2 (List.mem_cons_of_mem _ hx))))
        rw [loadAfter_eq, tripsCapacity_ones fun x hx => hcap x (hsub x hx), tripsCapacity_ones h4] at h3
        simp only [List.flatMap_append, List.flatMap_cons, List.flatMap_nil, h1, h2, List.append_nil, List.length_append, hk.length_eq,
          List.length_cons, List.length_nil] at h3
        push_cast at h3
        linarith
      · obtain ⟨_, h1, h2⟩ := Visit.duty_eq ht
        simp only [dropDuty] at h1 h2
        have h3 := hok.dropAfter pre v (suf ++ post) (by rw [e]; simp) t (by simp [h2])
        rw [hk.mem_iff, List.mem_cons] at h3
        have htk : t = k := by
          rcases h3 with h3 | h3
          · exact h3
          · exact (hdn.2.2 t h3 t (by simp [h2]) rfl).elim
        subst htk
        refine ⟨v, suf, rfl, ht, ?_⟩
        simp only [List.flatMap_cons, List.flatMap_nil, List.append_nil, h1, h2] at ih1
        exact ih1 (hk.trans (List.perm_append_singleton _ _).symm)

/-! ## What a route reports -/

/-- What the rides picked up at the visits earn, according to the objective. -/
def reported (E : Env) : ℚ → Pos → List Visit → ℚ
  | _, _, [] => 0
  | t, p, v :: l => (v.picks.map fun k => Ride.earned E ⟨k, (serve E t p v).dep, 0⟩).sum + reported E (serve E t p v).dep v.pos l

theorem reported_nothing {l : List Visit} (h : l.flatMap Visit.picks = []) (t : ℚ) (p : Pos) : reported E t p l = 0 := by
  induction l generalizing t p with
  | nil => rfl
  | cons v l ih =>
    rw [List.flatMap_cons, List.append_eq_nil_iff] at h
    rw [reported, h.1, ih h.2]
    simp

theorem ridesOf_earned (L : List (Visit × Tm)) (l : List Visit) (t : ℚ) (p : Pos) :
    (((l.zip (timetable E t p l)).flatMap fun x => x.1.picks.map fun k => (⟨k, x.2.dep, dropStart L k⟩ : Ride)).map (Ride.earned E)).sum =
      reported E t p l := by
  induction l generalizing t p with
  | nil => rfl
  | cons v l ih =>
    rw [timetable, List.zip_cons_cons, List.flatMap_cons, List.map_append, List.sum_append, ih, reported, List.map_map]
    rfl

theorem rides_trips (veh : Vehicle) (l : List Visit) : ∀ x ∈ rides E veh l, x.trip ∈ l.flatMap Visit.picks := by
  intro x hx
  obtain ⟨⟨v, y⟩, hv, hx⟩ := List.mem_flatMap.1 hx
  obtain ⟨k, hk, rfl⟩ := List.mem_map.1 hx
  exact List.mem_flatMap.2 ⟨v, (List.of_mem_zip hv).1, hk⟩

theorem routeValue_reported {veh : Vehicle} {l : List Visit} (hcap : ∀ t ∈ l.flatMap Visit.picks, (E.trip t).capacity = 1) :
    routeValue E veh l .hashCode = [reported E veh.origin.earliest veh.origin.position l] := by
  have h1 : (rides E veh l).filter (fun x => decide ((E.trip x.trip).capacity ≠ 0)) = rides E veh l := by
    rw [List.filter_eq_self]
    intro x hx
    rw [hcap _ (rides_trips veh l x hx)]
    decide
  unfold routeValue
  rw [h1]
  unfold rides ridesOf vehicleTimetable
  rw [ridesOf_earned]

/-! ## The contest -/

/-- Trip `t` is the ride `r` of the contest. -/
structure IsRide (E : Env) (bonus : ℚ) (t : Nat) (r : ContestRide) : Prop where
  origin : (E.trip t).origin.position = [r.startX, r.startY]
  destination : (E.trip t).destination.position = [r.finishX, r.finishY]
  earliest : (E.trip t).origin.earliest = r.earliest
  destinationEarliest : (E.trip t).destination.earliest = 0
  boarding : (E.trip t).origin.duration = 0
  leaving : (E.trip t).destination.duration = 0
  capacity : (E.trip t).capacity = 1
  bonus : (E.trip t).onTimeBonus = bonus
  timeout : (E.trip t).timeout = .inf

theorem manhattan_grid (a b x y : ℚ) : manhattan [a, b] [x, y] = grid a b x y := by simp [manhattan, grid]

theorem grid_nonneg (a b x y : ℚ) : 0 ≤ grid a b x y := by unfold grid; positivity

variable {bonus : ℚ} {R : Nat → ContestRide}

/-- Picking a ride up: start and departure. -/
theorem IsRide.pick {k : Nat} (h : IsRide E bonus k (R k)) (hm : E.metric = manhattan) {v : Visit} (hv : v.duty = pickDuty E k) (t x y : ℚ) :
    (serve E t [x, y] v).dep = max (max (v.request.getD (t + grid x y (R k).startX (R k).startY)) (R k).earliest)
      (t + grid x y (R k).startX (R k).startY) ∧ v.pos = [(R k).startX, (R k).startY] ∧
    ∀ d, Ride.earned E ⟨k, d, 0⟩ = (R k).distance + if d = (R k).earliest then bonus else 0 := by
  obtain ⟨h1, h2, h3⟩ := Visit.duty_eq hv
  simp only [pickDuty] at h1 h2 h3
  refine ⟨?_, by rw [h1, h.origin], fun d => ?_⟩
  · simp [serve, Visit.earliest, Visit.loadTime, h1, h2, h3, maxD, hm, h.origin, manhattan_grid, h.boarding, Trip.originEarliest, h.timeout,
      h.earliest]
  · simp [Ride.earned, Trip.distance, hm, h.origin, h.destination, manhattan_grid, Trip.originEarliest, h.timeout, h.earliest, h.bonus,
      ContestRide.distance]

/-- Dropping a ride. -/
theorem IsRide.drop {k : Nat} (h : IsRide E bonus k (R k)) (hm : E.metric = manhattan) {w : Visit} (hw : w.duty = dropDuty E k) (t : ℚ) :
    (serve E t [(R k).startX, (R k).startY] w).dep = (serve E t [(R k).startX, (R k).startY] w).start ∧
    (serve E t [(R k).startX, (R k).startY] w).start = max (max (w.request.getD (t + (R k).distance))
      (max ((R k).earliest + (R k).distance) 0)) (t + (R k).distance) ∧ w.pos = [(R k).finishX, (R k).finishY] ∧ w.picks = [] ∧ w.drops = [k] := by
  obtain ⟨h1, h2, h3⟩ := Visit.duty_eq hw
  simp only [dropDuty] at h1 h2 h3
  refine ⟨?_, ?_, by rw [h1, h.destination], h2, h3⟩
  · simp [serve, Visit.loadTime, h2, h3, maxD, h.leaving]
  · simp [serve, Visit.earliest, h1, h2, h3, maxD, hm, h.destination, manhattan_grid, h.boarding, Trip.destinationEarliest, h.origin, Trip.directTime,
      h.destinationEarliest, h.earliest, ContestRide.distance]

/-- The rides of visits that are served one by one and delivered in time earn at the contest at least what is reported. -/
theorem OneByOne.contest (hb : 0 ≤ bonus) (hm : E.metric = manhattan) {l : List Visit} {ks : List Nat} (h : OneByOne E l ks)
    (hR : ∀ k ∈ ks, IsRide E bonus k (R k)) {post : List Visit} (hpost : post.flatMap Visit.picks = []) : ∀ t x y tc, tc ≤ t →
    (∀ z ∈ l.zip (timetable E t [x, y] l), ∀ k ∈ z.1.drops, z.2.start ≤ (R k).latest) →
    reported E t [x, y] (l ++ post) ≤ contestEarned bonus x y tc (ks.map R) := by
  induction h with
  | nil => intro t x y tc _ _; rw [List.nil_append, reported_nothing hpost]; exact le_of_eq rfl
  | @ride v w k l ks hv hw _ ih =>
    intro t x y tc htc hin
    have hr := hR k (by simp)
    obtain ⟨p1, p2, p3⟩ := hr.pick hm hv t x y
    obtain ⟨d1, d2, d3, d4, d5⟩ := hr.drop hm hw (serve E t [x, y] v).dep
    have hvp : v.picks = [k] := (Visit.duty_eq hv).2.1
    simp only [List.cons_append, reported, hvp, List.map_cons, List.map_nil, List.sum_cons, List.sum_nil, add_zero, p2, d3, d4, zero_add,
      contestEarned]
    have hs1 : (R k).startAt x y tc ≤ (serve E t [x, y] v).dep := by
      rw [p1]
      unfold ContestRide.startAt
      refine max_le (le_trans (by linarith) (le_max_right _ _)) (le_trans (le_max_right _ _) (le_max_left _ _))
    have hs2 : (R k).earliest ≤ (R k).startAt x y tc := le_max_right _ _
    have hs3 : (R k).startAt x y tc + (R k).distance ≤ (serve E (serve E t [x, y] v).dep [(R k).startX, (R k).startY] w).start := by
      rw [d2]
      exact le_trans (by linarith) (le_max_right _ _)
    have hlate : (serve E (serve E t [x, y] v).dep [(R k).startX, (R k).startY] w).start ≤ (R k).latest := by
      refine hin (w, serve E (serve E t [x, y] v).dep [(R k).startX, (R k).startY] w) ?_ k (by simp [d5])
      simp [timetable, p2]
    rw [if_pos (le_trans hs3 hlate), p3]
    refine add_le_add (add_le_add le_rfl ?_) (ih (fun k hk => hR k (List.mem_cons_of_mem _ hk)) _ _ _ _ ?_ ?_)
    · by_cases he : (serve E t [x, y] v).dep = (R k).earliest
      · rw [if_pos he, if_pos (le_antisymm (he ▸ hs1) hs2)]
      · rw [if_neg he]
        split <;> simp [hb]
    · rw [d1]; exact hs3
    · intro z hz
      refine hin z ?_
      simp only [timetable, List.zip_cons_cons, p2, d3]
      exact List.mem_cons_of_mem _ (List.mem_cons_of_mem _ hz)

/-- If no times are requested and the first ride is not delayed, what is reported is exactly what visits that are served one
by one and delivered in time earn. -/
theorem OneByOne.contest_eq (hm : E.metric = manhattan) {l : List Visit} {ks : List Nat} (h : OneByOne E l ks)
    (hR : ∀ k ∈ ks, IsRide E bonus k (R k)) (hreq : ∀ v ∈ l, v.request = none) {post : List Visit} (hpost : post.flatMap Visit.picks = []) :
    ∀ t x y tc, 0 ≤ tc → tc ≤ t → (tc = t ∨ ∀ v ∈ l.head?, t + E.metric [x, y] v.pos ≤ v.earliest E) →
    (∀ z ∈ l.zip (timetable E t [x, y] l), ∀ k ∈ z.1.drops, z.2.start ≤ (R k).latest) →
    reported E t [x, y] (l ++ post) = contestEarned bonus x y tc (ks.map R) := by
  induction h with
  | nil => intro t x y tc _ _ _ _; rw [List.nil_append, reported_nothing hpost]; rfl
  | @ride v w k l ks hv hw _ ih =>
    intro t x y tc ht hle hfirst hin
    have hr := hR k (by simp)
    obtain ⟨p1, p2, p3⟩ := hr.pick hm hv t x y
    obtain ⟨d1, d2, d3, d4, d5⟩ := hr.drop hm hw (serve E t [x, y] v).dep
    have hvp : v.picks = [k] := (Visit.duty_eq hv).2.1
    simp only [List.cons_append, reported, hvp, List.map_cons, List.map_nil, List.sum_cons, List.sum_nil, add_zero, p2, d3, d4, zero_add,
      contestEarned]
    have hg := grid_nonneg x y (R k).startX (R k).startY
    have hd : 0 ≤ (R k).distance := grid_nonneg _ _ _ _
    have hs1 : (serve E t [x, y] v).dep = (R k).startAt x y tc := by
      rw [p1, hreq v (by simp)]
      unfold ContestRide.startAt
      simp only [Option.getD_none]
      rw [max_eq_left (le_max_left _ _)]
      rcases hfirst with rfl | hfirst
      · rfl
      · have h1 := hfirst v rfl
        have h2 : v.earliest E = (R k).earliest := by
          simp [Visit.earliest, (Visit.duty_eq hv).2.1, (Visit.duty_eq hv).2.2, pickDuty, maxD, Trip.originEarliest, hr.timeout, hr.earliest]
        rw [h2, p2, hm, manhattan_grid] at h1
        rw [max_eq_right h1, max_eq_right (by linarith)]
    have hs2 : (R k).earliest ≤ (R k).startAt x y tc := le_max_right _ _
    have hs0 : 0 ≤ (R k).startAt x y tc := le_trans (by linarith) (le_max_left _ _)
    have hs3 : (serve E (serve E t [x, y] v).dep [(R k).startX, (R k).startY] w).start = (R k).startAt x y tc + (R k).distance := by
      rw [d2, hreq w (by simp), hs1]
      simp only [Option.getD_none]
      rw [max_eq_right]
      exact max_le le_rfl (max_le (by linarith) (by linarith))
    have hlate : (serve E (serve E t [x, y] v).dep [(R k).startX, (R k).startY] w).start ≤ (R k).latest := by
      refine hin (w, serve E (serve E t [x, y] v).dep [(R k).startX, (R k).startY] w) ?_ k (by simp [d5])
      simp [timetable, p2]
    rw [hs3] at hlate
    rw [if_pos hlate, p3, d1, hs3, hs1,
      ih (fun k hk => hR k (List.mem_cons_of_mem _ hk)) (fun v hv => hreq v (List.mem_cons_of_mem _ (List.mem_cons_of_mem _ hv))) _ _ _ _ (by linarith) le_rfl (.inl rfl)]
    intro z hz
    refine hin z ?_
    simp only [timetable, List.zip_cons_cons, p2, d3]
    rw [hs1, ← hs1, d1, hs3]
    exact List.mem_cons_of_mem _ (List.mem_cons_of_mem _ hz)

end Jinete
