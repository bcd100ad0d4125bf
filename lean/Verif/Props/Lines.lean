import Verif.Spec.Lines
import Verif.Props.GraspRides

/-!
# C140: the lines of a submission at the contest
-/

set_option autoImplicit false

namespace Jinete

variable {E : Env} {rows : Rows} {f n : Nat} {b T : ℚ}

theorem startAt_ge (r : ContestRide) (x y t : ℚ) : t ≤ r.startAt x y t :=
  le_trans (le_add_of_nonneg_right (grid_nonneg _ _ _ _)) (le_max_left _ _)

theorem distance_nonneg (r : ContestRide) : 0 ≤ r.distance := grid_nonneg _ _ _ _

/-! ## From schedules to lines -/

theorem OneByOne.home (hE : EnvOK E) (hm : E.metric = manhattan) {bonus : ℚ} {R : Nat → ContestRide} {l : List Visit} {ks : List Nat} (h : OneByOne E l ks)
    (hR : ∀ k ∈ ks, IsRide E bonus k (R k)) {vl : Visit} (hvl : vl.pos = [0, 0]) {S : ℚ} : ∀ t x y tc, tc ≤ t →
    (∀ z ∈ l.zip (timetable E t [x, y] l), ∀ k ∈ z.1.picks, z.2.start ≤ (R k).latest + S) →
    (∀ z ∈ (timetable E t [x, y] (l ++ [vl])).getLast?, z.dep ≤ T + S) → ReturnsHome T S x y tc (ks.map R) := by
  induction h with
  | nil =>
    intro t x y tc htc _ hlast
    have h1 := hlast (serve E t [x, y] vl) rfl
    have h2 : t + grid x y 0 0 ≤ (serve E t [x, y] vl).dep := by
      have := vl.loadTime_nonneg hE
      simp only [serve, hvl, hm, manhattan_grid]
      exact le_trans (le_max_right _ _) (le_add_of_nonneg_right this)
    show tc + grid x y 0 0 ≤ T + S
    linarith
  | @ride v w k l ks hv hw _ ih =>
    intro t x y tc htc hin hlast
    have hr := hR k (by simp)
    obtain ⟨p1, p2, p3⟩ := hr.pick hm hv t x y
    obtain ⟨d1, d2, d3, d4, d5⟩ := hr.drop hm hw (serve E t [x, y] v).dep
    have hvp : v.picks = [k] := (Visit.duty_eq hv).2.1
    have hstart : (serve E t [x, y] v).start = (serve E t [x, y] v).dep := by
      have hvd : v.drops = [] := (Visit.duty_eq hv).2.2
      simp [serve, Visit.loadTime, hvp, hvd, maxD, hr.boarding]
    have hs1 : (R k).startAt x y tc ≤ (serve E t [x, y] v).dep := by
      rw [p1]
      unfold ContestRide.startAt
      refine max_le (le_trans (by linarith) (le_max_right _ _)) (le_trans (le_max_right _ _) (le_max_left _ _))
    have hs3 : (R k).startAt x y tc + (R k).distance ≤ (serve E (serve E t [x, y] v).dep [(R k).startX, (R k).startY] w).start := by
      rw [d2]
      exact le_trans (by linarith) (le_max_right _ _)
    refine ⟨?_, ih (fun k hk => hR k (List.mem_cons_of_mem _ hk)) _ _ _ _ (le_trans hs3 (le_of_eq d1.symm)) ?_ ?_⟩
    · refine le_trans (hstart ▸ hs1) (hin (v, serve E t [x, y] v) (by simp [timetable]) k (by simp [hvp]))
    · intro z hz
      refine hin z ?_
      simp only [timetable, List.zip_cons_cons, p2, d3]
      exact List.mem_cons_of_mem _ (List.mem_cons_of_mem _ hz)
    · intro z hz
      refine hlast z ?_
      simp only [List.cons_append, timetable, p2, d3]
      rw [List.getLast?_cons_cons, List.getLast?_cons]
      rw [hz]
      rfl

/-- **C140, every line.** Whatever algorithm made it: with a route of a good plan for a Hash Code file that serves a ride, a vehicle that drives its rides in order
as the contest prescribes starts each ride by its latest finish and can be back at `(0, 0)` by the end, up to `ERROR_BOUND`. -/
theorem C140_line (hd : HashCodeData rows f n b T) {P : Problem} (hP : HashCodeProblem rows f n P) {h : Heap} {rs : List Nat}
    (hg : GoodPlan P.env P.fleet P.job h rs) {r : Nat} (hr : r ∈ rs) (hne : tripsOf h.core r ≠ []) :
    ReturnsHome T errorBound 0 0 0 ((tripsOf h.core r).map (contestRide rows)) := by
  have hs : ServesRides P.env f n h rs := hg.planning.servesRides (fun v hv => by rwa [Problem.fleet, List.mem_range, hP.vehicles] at hv)
    (fun t ht => by rwa [Problem.job, List.mem_range, hP.trips] at ht) hg.proper hg.loosely
  have hw := hs.wf r hr
  have hl := hP.loaded
  obtain ⟨v0, mid, vl, hv, p0, k0, d0, kl, ho⟩ := hs.one_by_one hd hl hr
  obtain ⟨o1, o2, o3, o4, _, _⟩ := loaded_depot hd hl (hs.vehicles r hr)
  have hf := (hg.feasibly hP.rideLimit hP.maxDuration r hr).resolve_left hne
  have hf : FeasibleItinerary P.env (P.env.vehicle (h.core.route r).vehicle) (itinerary h.core r) := hf
  have hR : ∀ k ∈ tripsOf h.core r, IsRide P.env b k (contestRide rows k) := fun k hk => loaded_rides hd hl (hs.rides r hr k hk)
  have hvl : vl.pos = [0, 0] := by
    have := hf.vehicle.endPos
    rw [hv, o3] at this
    simpa [List.getLast?_cons, List.getLast?_append] using this
  have hserve : (serve P.env 0 [0, 0] v0).dep = max (max (v0.request.getD 0) 0) 0 := by
    simp [serve, hl.metric, p0, manhattan, Visit.earliest, Visit.loadTime, k0, d0, maxD]
  have h00 : 0 ≤ (serve P.env 0 [0, 0] v0).dep := by rw [hserve]; exact le_max_right _ _
  have hT : vehicleTimetable P.env (P.env.vehicle (h.core.route r).vehicle) (itinerary h.core r) =
      serve P.env 0 [0, 0] v0 :: timetable P.env (serve P.env 0 [0, 0] v0).dep [0, 0] (mid ++ [vl]) := by
    unfold vehicleTimetable
    rw [o1, o2, hv, timetable, p0]
  refine ho.home hP.ok hl.metric hR hvl _ _ _ _ h00 ?_ ?_
  · intro z hz k hk
    obtain ⟨i, hi⟩ := List.mem_iff_getElem?.1 hz
    obtain ⟨hi1, hi2⟩ := List.getElem?_zip_eq_some.1 hi
    have hv1 : (itinerary h.core r)[i + 1]? = some z.1 := by
      rw [hv, List.getElem?_cons_succ]
      exact List.getElem?_append_left (by
        by_contra hn
        rw [List.getElem?_eq_none (by omega)] at hi1
        cases hi1) |>.trans hi1
    have hx1 : (vehicleTimetable P.env (P.env.vehicle (h.core.route r).vehicle) (itinerary h.core r))[i + 1]? = some z.2 := by
      rw [hT, List.getElem?_cons_succ, timetable_append]
      exact List.getElem?_append_left (by
        by_contra hn
        rw [List.getElem?_eq_none (by omega)] at hi2
        cases hi2) |>.trans hi2
    obtain ⟨a, c, e, ha⟩ : ∃ a c, itinerary h.core r = a ++ z.1 :: c ∧ a.length = i + 1 := by
      obtain ⟨hlt, he⟩ := List.getElem?_eq_some_iff.1 hv1
      refine ⟨(itinerary h.core r).take (i + 1), (itinerary h.core r).drop (i + 2), ?_, by simp; omega⟩
      rw [← he]
      simp
    have hdrop := hw.itinOK.pickBefore a z.1 c e k hk
    obtain ⟨w, hwm, hwt⟩ := List.mem_flatMap.1 hdrop
    obtain ⟨c1, c2, rfl⟩ := List.append_of_mem hwm
    have e2 : itinerary h.core r = (a ++ z.1 :: c1) ++ w :: c2 := by rw [e]; simp
    have h2 : (itinerary h.core r)[(a ++ z.1 :: c1).length]? = some w := by
      rw [e2, List.getElem?_append_right le_rfl]
      simp
    have hy := timetable_at (E := P.env) (P.env.vehicle (h.core.route r).vehicle).origin.earliest (P.env.vehicle (h.core.route r).vehicle).origin.position
      (a ++ z.1 :: c1) c2 w
    have hq := loads_at (E := P.env) 0 a (c1 ++ w :: c2) z.1
    have hq' := loads_at (E := P.env) 0 (a ++ z.1 :: c1) c2 w
    rw [← e, ha] at hq
    rw [← e2] at hy hq'
    have key := (hf.trips _ _ z.1 w _ _ _ _ k hv1 h2 hx1 hy hq hq' hk hwt).pickLatest
    have hkt : k ∈ tripsOf h.core r := List.mem_flatMap.2 ⟨z.1, by rw [e]; simp, hk⟩
    obtain ⟨c1, c2⟩ := loaded_closing hd hl (hs.rides r hr k hkt)
    have oL : (P.env.trip k).originLatest P.env.metric = .fin (contestRide rows k).latest := by
      simp [Trip.originLatest, c1, c2, Bound.subQ, Bound.min, Bound.addQ]
    rw [oL] at key
    simpa [Bound.addQ, Bound.leQ] using key
  · intro z hz
    have := hf.vehicle.endTime z (by rw [hT, List.getLast?_cons, hz]; rfl)
    rw [o4] at this
    simpa [Bound.addQ, Bound.leQ] using this

/-- **C140, in the file.** -/
theorem C140_lines_submitted (hd : HashCodeData rows f n b T) {removeEmpty : Bool} {target : Text} {w w' : Site} {P : Problem} {l : List Nat}
    (hs : Submitted rows f n b removeEmpty target w w' P l) :
    ∃ o, w'.file target = some o ∧ ∀ line ∈ submissionLines o, line ≠ [] → ReturnsHome T errorBound 0 0 0 (line.map (contestRide rows)) := by
  obtain ⟨o, ho, _, h2, _⟩ := hs.written
  refine ⟨o, ho, fun line hline hne => ?_⟩
  obtain ⟨r, hr, rfl⟩ := List.mem_map.1 (List.mem_filter.1 (h2.mem_iff.1 hline)).1
  exact C140_line hd hs.problem hs.plan hr hne

/-! ## Whole numbers -/

def IsWhole (x : ℚ) : Prop := ∃ z : ℤ, x = z

theorem IsWhole.add {x y : ℚ} : IsWhole x → IsWhole y → IsWhole (x + y) := by
  rintro ⟨a, rfl⟩ ⟨c, rfl⟩
  exact ⟨a + c, by push_cast; rfl⟩

theorem IsWhole.max {x y : ℚ} : IsWhole x → IsWhole y → IsWhole (max x y) := by
  intro h1 h2
  rcases le_total x y with h | h
  · rwa [max_eq_right h]
  · rwa [max_eq_left h]

theorem IsWhole.dist {x y : ℚ} : IsWhole x → IsWhole y → IsWhole |x - y| := by
  rintro ⟨a, rfl⟩ ⟨c, rfl⟩
  exact ⟨|a - c|, by push_cast; rfl⟩

theorem IsWhole.grid {a b x y : ℚ} (h1 : IsWhole a) (h2 : IsWhole b) (h3 : IsWhole x) (h4 : IsWhole y) : IsWhole (grid a b x y) :=
  (h1.dist h3).add (h2.dist h4)

theorem IsWhole.le {x y : ℚ} : IsWhole x → IsWhole y → x ≤ y + errorBound → x ≤ y + 0 := by
  rintro ⟨a, rfl⟩ ⟨c, rfl⟩ h
  have h1 : (a : ℚ) < c + 1 := lt_of_le_of_lt h (by norm_num [errorBound])
  have h2 : a < c + 1 := by exact_mod_cast h1
  have h3 : a ≤ c := by omega
  rw [add_zero]
  exact_mod_cast h3

/-- The numbers of a ride are whole. -/
structure ContestRide.IsWhole (r : ContestRide) : Prop where
  startX : Jinete.IsWhole r.startX
  startY : Jinete.IsWhole r.startY
  finishX : Jinete.IsWhole r.finishX
  finishY : Jinete.IsWhole r.finishY
  earliest : Jinete.IsWhole r.earliest
  latest : Jinete.IsWhole r.latest

theorem whole_ride (hw : Whole rows) (k : Nat) : (contestRide rows k).IsWhole := by
  have zero : IsWhole 0 := ⟨0, by simp⟩
  unfold contestRide
  split
  · next a b x y e l h =>
    have hm := hw _ (List.mem_of_getElem? h)
    exact ⟨hm _ (by simp), hm _ (by simp), hm _ (by simp), hm _ (by simp), hm _ (by simp), hm _ (by simp)⟩
  · exact ⟨zero, zero, zero, zero, zero, zero⟩

theorem ReturnsHome.exact (hT : IsWhole T) : ∀ (rs : List ContestRide) (x y t : ℚ), (∀ r ∈ rs, r.IsWhole) → IsWhole x → IsWhole y → IsWhole t →
    ReturnsHome T errorBound x y t rs → ReturnsHome T 0 x y t rs := by
  have zero : IsWhole 0 := ⟨0, by simp⟩
  intro rs
  induction rs with
  | nil =>
    intro x y t _ hx hy ht h
    exact (ht.add (hx.grid hy zero zero)).le hT h
  | cons r rs ih =>
    intro x y t hr hx hy ht h
    have k := hr r (by simp)
    have hst : IsWhole (r.startAt x y t) := (ht.add (hx.grid hy k.startX k.startY)).max k.earliest
    exact ⟨hst.le k.latest h.1, ih _ _ _ (fun r h => hr r (by simp [h])) k.finishX k.finishY
      (hst.add (k.startX.grid k.startY k.finishX k.finishY)) h.2⟩

theorem ReturnsHome.before : ∀ (rs : List ContestRide) (x y t : ℚ), ReturnsHome T 0 x y t rs → t ≤ T := by
  intro rs
  induction rs with
  | nil =>
    intro x y t h
    have h : t + grid x y 0 0 ≤ T + 0 := h
    have := grid_nonneg x y 0 0
    linarith
  | cons r rs ih =>
    intro x y t h
    have h1 := ih _ _ _ h.2
    have h2 := startAt_ge r x y t
    have h3 := distance_nonneg r
    linarith

/-! ## Scores -/

theorem ReturnsHome.earned (hb : 0 ≤ b) : ∀ (rs : List ContestRide) (x y t : ℚ), (∀ r ∈ rs, T ≤ r.latest) → ReturnsHome T 0 x y t rs →
    (rs.map ContestRide.distance).sum ≤ contestEarned b x y t rs := by
  intro rs
  induction rs with
  | nil => intro x y t _ _; exact le_of_eq rfl
  | cons r rs ih =>
    intro x y t hr h
    have h1 := h.2.before
    have h2 := ih _ _ _ (fun r h => hr r (by simp [h])) h.2
    simp only [List.map_cons, List.sum_cons, contestEarned]
    rw [if_pos (le_trans h1 (hr r (by simp)))]
    split <;> linarith

theorem contestEarned_le (hb : 0 ≤ b) : ∀ (rs : List ContestRide) (x y t : ℚ),
    contestEarned b x y t rs ≤ (rs.map ContestRide.distance).sum + rs.length * b := by
  intro rs
  induction rs with
  | nil => intro x y t; simp [contestEarned]
  | cons r rs ih =>
    intro x y t
    have h := ih r.finishX r.finishY (r.startAt x y t + r.distance)
    have hD := distance_nonneg r
    simp only [List.map_cons, List.sum_cons, contestEarned, List.length_cons, Nat.cast_add, Nat.cast_one]
    split
    · split <;> linarith
    · linarith

/-- No submission scores more than the distance and the bonus of each of its rides. -/
theorem contestScore_le (hb : 0 ≤ b) (lines : List (List Nat)) :
    contestScore rows b lines ≤ totalDistance rows lines.flatten + lines.flatten.length * b := by
  unfold contestScore totalDistance
  induction lines with
  | nil => simp
  | cons ks lines ih =>
    have := contestEarned_le hb (ks.map (contestRide rows)) 0 0 0
    rw [List.map_map, List.length_map] at this
    simp only [List.map_cons, List.sum_cons, List.flatten_cons, List.map_append, List.sum_append, List.length_append, Nat.cast_add]
    have e : ContestRide.distance ∘ contestRide rows = fun k => (contestRide rows k).distance := rfl
    rw [e] at this
    linarith

theorem contestScore_ge (hb : 0 ≤ b) (lines : List (List Nat)) (hT : ∀ k ∈ lines.flatten, T ≤ (contestRide rows k).latest)
    (h : ∀ line ∈ lines, line ≠ [] → ReturnsHome T 0 0 0 0 (line.map (contestRide rows))) : totalDistance rows lines.flatten ≤ contestScore rows b lines := by
  unfold contestScore totalDistance
  induction lines with
  | nil => simp
  | cons ks lines ih =>
    have h2 := ih (fun k hk => hT k (by simp [hk])) fun line hl => h line (by simp [hl])
    have h1 : ((ks.map (contestRide rows)).map ContestRide.distance).sum ≤ contestEarned b 0 0 0 (ks.map (contestRide rows)) := by
      by_cases hk : ks = []
      · subst hk
        exact le_of_eq rfl
      · refine (h ks (by simp) hk).earned hb _ _ _ _ ?_
        intro r hr
        obtain ⟨k, hk, rfl⟩ := List.mem_map.1 hr
        exact hT k (by simp [hk])
    rw [List.map_map] at h1
    have e : ContestRide.distance ∘ contestRide rows = fun k => (contestRide rows k).distance := rfl
    rw [e] at h1
    simp only [List.map_cons, List.sum_cons, List.flatten_cons, List.map_append, List.sum_append]
    linarith

/-- **C140, no deadlines before the end.** With whole numbers, and rides that may be finished until the end of the simulation or later, every ride of a submission scores,
whatever algorithm made it: the score is the total distance of its rides, and at most the bonus of each besides. -/
theorem C140_every_ride_scores (hd : HashCodeData rows f n b T) (hw : Whole rows) (hb : 0 ≤ b) (hlate : ∀ k < n, T ≤ (contestRide rows k).latest)
    {removeEmpty : Bool} {target : Text} {w w' : Site} {P : Problem} {l : List Nat} (hs : Submitted rows f n b removeEmpty target w w' P l) :
    ∃ o, w'.file target = some o ∧ totalDistance rows (submissionLines o).flatten ≤ contestScore rows b (submissionLines o) ∧
      contestScore rows b (submissionLines o) ≤ totalDistance rows (submissionLines o).flatten + (submissionLines o).flatten.length * b := by
  obtain ⟨o, ho, hlines⟩ := C140_lines_submitted hd hs
  obtain ⟨o', ho', hrides⟩ := C138_no_other_rides_submitted hd hs
  rw [ho] at ho'
  cases ho'
  have zero : IsWhole 0 := ⟨0, by simp⟩
  have hT : IsWhole T := by
    obtain ⟨r, c, count, rest, h0⟩ := hd.header
    exact hw _ (List.mem_of_getElem? h0) _ (by simp)
  refine ⟨o, ho, contestScore_ge hb _ (fun k hk => hlate k (hrides k hk).1) fun line hl hne => ?_, contestScore_le hb _⟩
  refine ReturnsHome.exact hT _ _ _ _ ?_ zero zero zero (hlines line hl hne)
  intro r hr
  obtain ⟨k, _, rfl⟩ := List.mem_map.1 hr
  exact whole_ride hw k

/-! ## No better submission -/

theorem grid_triangle (a b x y u v : ℚ) : grid a b u v ≤ grid a b x y + grid x y u v := by
  unfold grid
  have h1 := abs_sub_le a x u
  have h2 := abs_sub_le b y v
  linarith

theorem ReturnsHome.from_here {S : ℚ} : ∀ (rs : List ContestRide) (x y t : ℚ), ReturnsHome T S x y t rs → t + grid x y 0 0 ≤ T + S := by
  intro rs
  induction rs with
  | nil => intro x y t h; exact h
  | cons r rs ih =>
    intro x y t h
    have h1 := ih _ _ _ h.2
    have h2 : t + grid x y r.startX r.startY ≤ r.startAt x y t := le_max_left _ _
    have h3 := grid_triangle x y r.startX r.startY 0 0
    have h4 := grid_triangle r.startX r.startY r.finishX r.finishY 0 0
    have h5 : r.distance = grid r.startX r.startY r.finishX r.finishY := rfl
    linarith

/-- Each ride of a line with which a vehicle returns home could be served alone. -/
theorem ReturnsHome.alone {S : ℚ} : ∀ (rs : List ContestRide) (x y t : ℚ), grid 0 0 x y ≤ t → ReturnsHome T S x y t rs → ∀ r ∈ rs,
    r.startAt 0 0 0 ≤ r.latest + S ∧ r.startAt 0 0 0 + r.distance + grid r.finishX r.finishY 0 0 ≤ T + S := by
  intro rs
  induction rs with
  | nil => intro x y t _ _ r hr; cases hr
  | cons r rs ih =>
    intro x y t ht h q hq
    have h2 : t + grid x y r.startX r.startY ≤ r.startAt x y t := le_max_left _ _
    have h3 := grid_triangle 0 0 x y r.startX r.startY
    rcases List.mem_cons.1 hq with rfl | hq
    · have h1 := h.2.from_here
      have hs : q.startAt 0 0 0 ≤ q.startAt x y t := max_le (by linarith) (le_max_right _ _)
      exact ⟨le_trans hs h.1, by linarith⟩
    · refine ih _ _ _ ?_ h.2 q hq
      have h4 := grid_triangle 0 0 r.startX r.startY r.finishX r.finishY
      have h5 : r.distance = grid r.startX r.startY r.finishX r.finishY := rfl
      linarith

/-- A way to use the vehicles at the contest such that all return to `(0, 0)` by the end. -/
structure HomeboundLines (rows : Rows) (n : Nat) (T : ℚ) (lines : List (List Nat)) : Prop where
  once : lines.flatten.Nodup
  rides : ∀ k ∈ lines.flatten, k < n
  home : ∀ line ∈ lines, line ≠ [] → ReturnsHome T errorBound 0 0 0 (line.map (contestRide rows))

theorem HomeboundLines.roundTrip {lines : List (List Nat)} (h : HomeboundLines rows n T lines) {k : Nat} (hk : k ∈ lines.flatten) :
    k < n ∧ (contestRide rows k).RoundTrip T := by
  refine ⟨h.rides k hk, ?_⟩
  obtain ⟨line, hl, hkl⟩ := List.mem_flatten.1 hk
  obtain ⟨h1, h2⟩ := (h.home line hl (List.ne_nil_of_mem hkl)).alone _ _ _ _ (by simp [grid]) _ (List.mem_map_of_mem hkl)
  exact ⟨h1, h2⟩

theorem totalDistance_mono {ks ls : List Nat} (hk : ks.Nodup) (h : ∀ k ∈ ks, k ∈ ls) : totalDistance rows ks ≤ totalDistance rows ls := by
  obtain ⟨m, hp, hsub⟩ := hk.subperm h
  unfold totalDistance
  rw [← (hp.map _).sum_eq]
  refine (hsub.map _).sum_le_sum fun a ha => ?_
  obtain ⟨k, _, rfl⟩ := List.mem_map.1 ha
  exact distance_nonneg _

/-- What the theorems on a vehicle for each ride give. -/
theorem best_of_exact (hd : HashCodeData rows f n b T) (hw : Whole rows) (hb : 0 ≤ b) (hlate : ∀ k < n, T ≤ (contestRide rows k).latest)
    {removeEmpty : Bool} {target : Text} {w w' : Site} {P : Problem} {l : List Nat} (hs : Submitted rows f n b removeEmpty target w w' P l) {o : Text}
    (ho : w'.file target = some o) (hiff : ∀ t, t ∈ (submissionLines o).flatten ↔ t < n ∧ (contestRide rows t).RoundTrip T) {lines : List (List Nat)}
    (hl : HomeboundLines rows n T lines) :
    contestScore rows b lines ≤ contestScore rows b (submissionLines o) + lines.flatten.length * b := by
  obtain ⟨o', ho', h1, _⟩ := C140_every_ride_scores hd hw hb hlate hs
  rw [ho] at ho'
  cases ho'
  have h2 := contestScore_le (rows := rows) hb lines
  have h3 := totalDistance_mono (rows := rows) hl.once fun k hk => (hiff k).2 (hl.roundTrip hk)
  linarith

/-- **C140, insertion.** With whole numbers, rides that may be finished until the end or later, a vehicle for each ride, and insertions that try all trips, with any strategy whose sampling ends: no use of
vehicles, however many, that all return by the end scores more than the submission and the bonuses of its own rides; without a bonus, more than the submission. -/
theorem C140_any_strategy {euclid : Pos → Pos → ℚ} {columnar : OutputFormat} {source target : Text} {removeEmpty : Bool} {w : Site} {text : Text}
    (ht : w.file source = some text) (hr : FileText text rows) (hd : HashCodeData rows f n b T) (hw : Whole rows) (hb : 0 ≤ b)
    (hlate : ∀ k < n, T ≤ (contestRide rows k).latest) (hf : 0 < f) (hmany : n ≤ f)
    {S : Problem → Heap → Settings} (hS : ∀ P h, (S P h).Of P.env P.fleet P.job) (hst : ∀ P h, (S P h).strategy.Tries)
    (hends : ∀ P h, (S P h).strategy.Ends) (hsz : ∀ P h, P.job.length ≤ neighborhoodSize (S P h)) (hof : ∀ P h, (S P h).onlyFeasible = true ∨ (S P h).randomized = 1)
    (nd : NoDangling w.data.2.core) {fuel : Nat} (hn : n < fuel) :
    ∃ P l w' o, (fileSolver euclid columnar source target hashcodeInput (hashcodeOutput removeEmpty) fun P =>
        insertionOptimize P.env P.objective (S P) fuel none).solve w = (.ok (.result P l), w') ∧
      w'.file target = some o ∧ HomeboundLines rows n T (submissionLines o) ∧ ∀ lines, HomeboundLines rows n T lines →
        contestScore rows b lines ≤ contestScore rows b (submissionLines o) + lines.flatten.length * b := by
  obtain ⟨P, l, w', o, e, hs, ho, hnd, hiff⟩ := C138_any_strategy (euclid := euclid) (columnar := columnar) (source := source) (target := target)
    (removeEmpty := removeEmpty) ht hr hd hf hmany hS hst hends hsz hof nd hn
  obtain ⟨o', ho', hlines⟩ := C140_lines_submitted hd hs
  rw [ho] at ho'
  cases ho'
  exact ⟨P, l, w', o, e, ho, ⟨hnd, fun k hk => ((hiff k).1 hk).1, hlines⟩, fun lines hl => best_of_exact hd hw hb hlate hs ho hiff hl⟩

/-- **C140, few rides.** The same with samples that are not smaller than the number of pairs of positions. -/
theorem C140_insertion_best {euclid : Pos → Pos → ℚ} {columnar : OutputFormat} {source target : Text} {removeEmpty : Bool} {w : Site} {text : Text}
    (ht : w.file source = some text) (hr : FileText text rows) (hd : HashCodeData rows f n b T) (hw : Whole rows) (hb : 0 ≤ b)
    (hlate : ∀ k < n, T ≤ (contestRide rows k).latest) (hf : 0 < f) (hmany : n ≤ f)
    {S : Problem → Heap → Settings} (hS : ∀ P h, (S P h).Of P.env P.fleet P.job) (hst : ∀ P h, (S P h).strategy.Thorough P.job.length)
    (hsz : ∀ P h, P.job.length ≤ neighborhoodSize (S P h)) (hof : ∀ P h, (S P h).onlyFeasible = true ∨ (S P h).randomized = 1)
    (nd : NoDangling w.data.2.core) {fuel : Nat} (hn : n < fuel) :
    ∃ P l w' o, (fileSolver euclid columnar source target hashcodeInput (hashcodeOutput removeEmpty) fun P =>
        insertionOptimize P.env P.objective (S P) fuel none).solve w = (.ok (.result P l), w') ∧
      w'.file target = some o ∧ HomeboundLines rows n T (submissionLines o) ∧ ∀ lines, HomeboundLines rows n T lines →
        contestScore rows b lines ≤ contestScore rows b (submissionLines o) + lines.flatten.length * b := by
  obtain ⟨P, l, w', o, e, hs, ho, hnd, hiff⟩ := C138_rides_submitted (euclid := euclid) (columnar := columnar) (source := source) (target := target)
    (removeEmpty := removeEmpty) ht hr hd hf hmany hS hst hsz hof nd hn
  obtain ⟨o', ho', hlines⟩ := C140_lines_submitted hd hs
  rw [ho] at ho'
  cases ho'
  exact ⟨P, l, w', o, e, ho, ⟨hnd, fun k hk => ((hiff k).1 hk).1, hlines⟩, fun lines hl => best_of_exact hd hw hb hlate hs ho hiff hl⟩

/-- **C140, GRASP.** The same, if it does not run out of rounds. -/
theorem C140_grasp_best {D : Nat → Heap → Draws} {threshold fuel : Nat} {seeds : Nat → Nat} {draw draw' : Nat → Nat → Nat} {episodes firstEpisodes : Nat}
    {euclid : Pos → Pos → ℚ} {columnar : OutputFormat} {source target : Text} {removeEmpty : Bool} {w : Site} {text : Text}
    (ht : w.file source = some text) (hr : FileText text rows) (hd : HashCodeData rows f n b T) (hw : Whole rows) (hb : 0 ≤ b)
    (hlate : ∀ k < n, T ≤ (contestRide rows k).latest) (hf : 0 < f) (hmany : n ≤ f) (hD : ∀ s h, (D s h).OK)
    {S : Problem → Nat → Heap → Settings} (hS : ∀ P s h, (S P s h).Of P.env P.fleet P.job)
    (hst : ∀ P s h, (S P s h).strategy.Tries) (hsz : ∀ P s h, P.job.length ≤ neighborhoodSize (S P s h))
    (hof : ∀ P s h, (S P s h).onlyFeasible = true ∨ (S P s h).randomized = 1) (nd : NoDangling w.data.2.core) (he : 0 < episodes) (hfe : 0 < firstEpisodes) :
    (∃ P l w' o, (fileSolver euclid columnar source target hashcodeInput (hashcodeOutput removeEmpty) fun P =>
        graspOptimize P.env P.objective D (S P) threshold fuel seeds draw draw' episodes firstEpisodes).solve w = (.ok (.result P l), w') ∧
      w'.file target = some o ∧ HomeboundLines rows n T (submissionLines o) ∧ ∀ lines, HomeboundLines rows n T lines →
        contestScore rows b lines ≤ contestScore rows b (submissionLines o) + lines.flatten.length * b) ∨
    ∃ w', (fileSolver euclid columnar source target hashcodeInput (hashcodeOutput removeEmpty) fun P =>
        graspOptimize P.env P.objective D (S P) threshold fuel seeds draw draw' episodes firstEpisodes).solve w = (.error .outOfFuel, w') ∧ w'.file = w.file := by
  rcases C139_rides_submitted (euclid := euclid) (columnar := columnar) (source := source) (target := target) (removeEmpty := removeEmpty)
    (threshold := threshold) (fuel := fuel) (seeds := seeds) (draw := draw) (draw' := draw') ht hr hd hf hmany hD hS hst hsz hof nd he hfe with
    ⟨P, l, w', o, e, hs, ho, hnd, hiff⟩ | h
  · obtain ⟨o', ho', hlines⟩ := C140_lines_submitted hd hs
    rw [ho] at ho'
    cases ho'
    exact .inl ⟨P, l, w', o, e, ho, ⟨hnd, fun k hk => ((hiff k).1 hk).1, hlines⟩, fun lines hl => best_of_exact hd hw hb hlate hs ho hiff hl⟩
  · exact .inr h

/-! ## What the contest allows -/

/-- What one would like: when the solver returns, no submission for the same rides and vehicles scores more than the one written. -/
def SubmitsBest (rows : Rows) (f n : Nat) (b : ℚ) (source target : Text) (optimize : Problem → M (List Nat)) : Prop :=
  ∀ (euclid : Pos → Pos → ℚ) (columnar : OutputFormat) (w : Site) (text : Text) (x : Item) (w' : Site), w.file source = some text → FileText text rows →
    NoDangling w.data.2.core → (fileSolver euclid columnar source target hashcodeInput (hashcodeOutput true) optimize).solve w = (.ok x, w') →
    ∃ o, w'.file target = some o ∧ ∀ lines : List (List Nat), lines.length ≤ f → lines.flatten.Nodup → (∀ k ∈ lines.flatten, k < n) →
      contestScore rows b lines ≤ contestScore rows b (submissionLines o)

/-- C140 needs that vehicles return: at the contest they need not, and a ride that ends too far away is worth something. -/
theorem C140_return_needed {S : Problem → Heap → Settings} (hS : ∀ P h, (S P h).Of P.env P.fleet P.job)
    (hstr : ∀ P h, (S P h).strategy.Ends) {fuel : Nat} (hn : 1 < fuel) {source target : Text} :
    ¬ SubmitsBest awayRows 1 1 2 source target fun P => insertionOptimize P.env P.objective (S P) fuel none := by
  intro h
  let w : Site := ⟨({ content := .ok [] }, .empty), fun _ => some awayInput, [], [], []⟩
  obtain ⟨P, l, w', e, hs⟩ := C86_insertion_submission_partial (euclid := manhattan) (columnar := fun _ _ => pure []) (source := source) (target := target)
    (removeEmpty := true) (w := w) rfl awayInput_rows awayRows_shape (by omega) hS hstr empty_noDangling hn
  obtain ⟨o, ho, hall⟩ := h manhattan (fun _ _ => pure []) w awayInput _ w' rfl awayInput_rows empty_noDangling e
  obtain ⟨o', ho', hno⟩ := C138_no_other_rides_submitted awayRows_shape hs
  rw [ho] at ho'
  cases ho'
  have hnil : (submissionLines o).flatten = [] := by
    refine List.eq_nil_iff_forall_not_mem.2 fun t ht => ?_
    obtain ⟨h1, h2⟩ := hno t ht
    obtain rfl : t = 0 := by omega
    have := h2.back
    revert this
    decide +kernel
  have h1 := hall [[0]] (by simp) (by simp) (by simp)
  have h2 := contestScore_le (rows := awayRows) (b := 2) (by norm_num) (submissionLines o)
  rw [hnil] at h2
  have h3 : contestScore awayRows 2 [[0]] = 7 := by decide +kernel
  rw [h3] at h1
  simp only [totalDistance, List.map_nil, List.sum_nil, List.length_nil, Nat.cast_zero, zero_mul, add_zero] at h2
  linarith

/-! ## A case -/

def slackInput : Text := "5 5 2 2 0 20\n0 0 1 1 0 20\n2 0 2 2 3 25\n".toList

def slackRows : Rows := [[5, 5, 2, 2, 0, 20], [0, 0, 1, 1, 0, 20], [2, 0, 2, 2, 3, 25]]

theorem slackInput_rows : FileText slackInput slackRows := fileData_iff.1 (C84_plain_rows [[5, 5, 2, 2, 0, 20], [0, 0, 1, 1, 0, 20], [2, 0, 2, 2, 3, 25]])

theorem slackRows_shape : HashCodeData slackRows 2 2 0 20 where
  header := ⟨5, 5, 2, [], by simp [slackRows]⟩
  length := rfl
  rides := by
    intro k hk
    interval_cases k
    · exact ⟨_, 0, 0, 1, 1, 0, 20, rfl, ⟨rfl⟩⟩
    · exact ⟨_, 2, 0, 2, 2, 3, 25, rfl, ⟨rfl⟩⟩

theorem slackRows_whole : Whole slackRows := by
  have : ∀ row ∈ slackRows, ∀ x ∈ row, x.den = 1 := by decide +kernel
  exact fun row hr x hx => ⟨x.num, (Rat.coe_int_num_of_den_eq_one (this row hr x hx)).symm⟩

/-- Both rides are submitted and score their distances, 4 in total, whatever the order of sets. -/
example (source target : Text) : ∃ P l w' o, (fileSolver manhattan (fun _ _ => pure []) source target hashcodeInput (hashcodeOutput true) fun P =>
      insertionOptimize P.env P.objective (fun _ => plainSettings P.env P.fleet P.job .intensive 1) 5 none).solve
        ⟨({ content := .ok [] }, .empty), fun _ => some slackInput, [], [], []⟩ = (.ok (.result P l), w') ∧
    w'.file target = some o ∧ 4 ≤ contestScore slackRows 0 (submissionLines o) := by
  obtain ⟨P, l, w', o, e, ho, -, hbest⟩ := C140_insertion_best (euclid := manhattan) (columnar := fun _ _ => pure []) (source := source) (target := target)
    (removeEmpty := true) (w := ⟨({ content := .ok [] }, .empty), fun _ => some slackInput, [], [], []⟩) (text := slackInput)
    (S := fun P _ => plainSettings P.env P.fleet P.job .intensive 1) (fuel := 5) rfl slackInput_rows slackRows_shape slackRows_whole le_rfl
    (by intro k hk; interval_cases k <;> decide +kernel) (by omega) (by omega)
    (fun P _ => ⟨rfl, rfl, rfl, plainSettings_fair _ _ _ _, Nat.one_pos⟩) (fun _ _ => .inl rfl) (fun P _ => by simp [neighborhoodSize, plainSettings])
    (fun _ _ => .inr rfl) empty_noDangling (by omega)
  refine ⟨P, l, w', o, e, ho, ?_⟩
  have h1 := hbest [[0], [1]] ⟨by decide, by decide, by
    intro line hl _
    simp only [List.mem_cons, List.not_mem_nil, or_false] at hl
    rcases hl with rfl | rfl
    · exact ⟨by decide +kernel, show _ ≤ _ by decide +kernel⟩
    · exact ⟨by decide +kernel, show _ ≤ _ by decide +kernel⟩⟩
  have h2 : contestScore slackRows 0 [[0], [1]] = 4 := by decide +kernel
  rw [h2] at h1
  simpa using h1

end Jinete
