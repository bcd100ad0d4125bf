import Verif.Model.Depth
import Verif.Props.Strategy
import Verif.Proofs.Reach

/-!
# C112: depth of the recursion along the stops
-/

set_option autoImplicit false

namespace Jinete

variable {E : Env}

/-- With nothing memoised on the way, the depth needed is the number of stops. -/
theorem departureF_deep (n : Nat) : ∀ (s : Nat) (anc : List Nat) (h : Heap), Anc h.core s anc →
    (∀ x ∈ s :: anc, h.dep x = none ∧ h.arr x = none) → n ≤ anc.length →
    departureF E n s h = (.error .recursionError, h) := by
  induction n with
  | zero => intro s anc h _ _ _; rfl
  | succ n ih =>
    intro s anc h ha hcold hlen
    cases anc with
    | nil => simp at hlen
    | cons p anc =>
      obtain ⟨hp, ha'⟩ := ha
      obtain ⟨hd, hr⟩ := hcold s (by simp)
      have e := ih p anc h ha' (fun x hx => hcold x (List.mem_cons_of_mem _ hx)) (by simpa using hlen)
      have e1 : prevDepartureWith E (departureF E n) s h = (.error .recursionError, h) := by
        simp only [prevDepartureWith, Py.read_bind, hp, e]
      have e2 : arrivalWith E (departureF E n) s h = (.error .recursionError, h) := by
        simp only [arrivalWith, Py.read_bind, hr]
        exact Py.bind_error e1
      have e3 : startingWith E (departureF E n) s h = (.error .recursionError, h) := by
        simp only [startingWith, Py.read_bind]
        cases (h.core.stop s).start with
        | none => exact Py.bind_error e2
        | some v => exact Py.bind_error e2
      unfold departureF
      simp only [Py.read_bind, hd]
      exact Py.bind_error e3

/-- The last stop of a route with stops, and what stands before it. -/
theorem last_split {l : List Nat} (hl : 2 ≤ l.length) : ∃ pre s, l = pre ++ [s] ∧ pre.length + 1 = l.length := by
  have hne : l ≠ [] := by rintro rfl; simp at hl
  exact ⟨l.dropLast, l.getLast hne, (List.dropLast_append_getLast hne).symm, by rw [List.length_dropLast]; omega⟩

/-- Flushing a route forgets the times of its stops, and nothing else of what is used to compute them. -/
theorem flushRoute_cold {h h1 : Heap} {r : Nat} (e : flushRoute r h = (.ok (), h1)) :
    h1.core = h.core ∧ ∀ s ∈ (h.core.route r).stops, h1.dep s = none ∧ h1.arr s = none ∧ h1.cap s = none := by
  have : h1 = (flushRoute r h).2 := by rw [e]
  subst this
  simp only [flushRoute, Py.modify_run, foldl_flushPt, flushStops_core, true_and]
  intro s hs
  simp [flushStops_dep, flushStops_arr, flushStops_cap, hs]

theorem lastStop_run {h : Heap} {r s : Nat} {pre : List Nat} (e : (h.core.route r).stops = pre ++ [s]) :
    lastStop r h = (.ok s, h) := by
  have e1 : routeStops r h = (.ok (pre ++ [s]), h) := by simp [routeStops, e]
  simp only [lastStop]
  rw [Py.bind_ok e1]
  simp [Py.unwrap]

/-- **C112.** The claim: however deep calls may be nested, a well-formed route whose times were forgotten can tell
when its last stop is left. -/
def EveryRouteTimed (L : Nat) : Prop :=
  ∀ (E : Env) (h h1 : Heap) (r : Nat), EnvOK E → WellFormed h.core r → CachesAgree E h r →
    flushRoute r h = (.ok (), h1) → ∃ v h2, lastDepartureWithin E L r h1 = (.ok v, h2)

/-- **C112, first half.** Up to `L` stops a nesting of `L` is enough, whatever was memoised, and the answer is the
departure of the schedule. After the times were forgotten the nesting suffices for no route of more than `L` stops:
the call raises `RecursionError` and leaves everything as it was. So after a flush it returns exactly for routes of
at most `L` stops. -/
theorem C112_partial (L : Nat) (h : Heap) (r : Nat) (hw : WellFormed h.core r) (ha : CachesAgree E h r) :
    ((h.core.route r).stops.length ≤ L →
      ∃ tm h2, (routeTimetable E h.core r).getLast? = some tm ∧ lastDepartureWithin E L r h = (.ok tm.dep, h2) ∧
        h2.core = h.core ∧ CachesAgree E h2 r) ∧
    (∀ h1, flushRoute r h = (.ok (), h1) →
      h1.core = h.core ∧ CachesAgree E h1 r ∧
      ((h.core.route r).stops.length ≤ L →
        ∃ tm h2, (routeTimetable E h.core r).getLast? = some tm ∧ lastDepartureWithin E L r h1 = (.ok tm.dep, h2)) ∧
      (L < (h.core.route r).stops.length → lastDepartureWithin E L r h1 = (.error .recursionError, h1))) := by
  have first : ∀ (h : Heap), WellFormed h.core r → CachesAgree E h r → (h.core.route r).stops.length ≤ L →
      ∃ tm h2, (routeTimetable E h.core r).getLast? = some tm ∧ lastDepartureWithin E L r h = (.ok tm.dep, h2) ∧
        h2.core = h.core ∧ CachesAgree E h2 r := by
    intro h hw ha hl
    obtain ⟨pre, s, e, hlen⟩ := last_split hw.length
    have hanc := hw.toChained.anc e
    have hread := departureF_reads (E := E) (c := h.core) (L := (h.core.route r).stops) L s pre.reverse hanc
      (by intro x hx; rw [e]; simpa [or_comm] using hx) (by simp; omega)
    obtain ⟨h2, e2, g2⟩ := hread h rfl ((cachesAgree_iff hw.toChained).1 ha)
    refine ⟨tmRev E h.core s pre.reverse, h2, ?_, ?_, g2.core, g2.agree hw.toChained ha⟩
    · rw [List.getLast?_eq_getElem?, routeTimetable_length]
      rw [← hw.toChained.timetable_at e]
      congr 1
      omega
    · simp only [lastDepartureWithin]
      rw [Py.bind_ok (lastStop_run e)]
      exact e2
  refine ⟨first h hw ha, fun h1 e1 => ?_⟩
  obtain ⟨hcore, hcold⟩ := flushRoute_cold e1
  have hw1 : WellFormed h1.core r := by rw [hcore]; exact hw
  have ha1 : CachesAgree E h1 r := by
    refine (cachesAgree_iff hw1.toChained).2 fun s hs => ?_
    rw [hcore] at hs
    obtain ⟨a, b, c⟩ := hcold s hs
    exact cohAt_none b a c
  refine ⟨hcore, ha1, fun hl => ?_, fun hl => ?_⟩
  · obtain ⟨tm, h2, a, b, -, -⟩ := first h1 hw1 ha1 (by rw [hcore]; exact hl)
    rw [hcore] at a
    exact ⟨tm, h2, a, b⟩
  · obtain ⟨pre, s, e, hlen⟩ := last_split hw.length
    have e' := e
    rw [← hcore] at e'
    have hanc := hw1.toChained.anc e'
    simp only [lastDepartureWithin]
    rw [Py.bind_ok (lastStop_run e')]
    refine departureF_deep L s pre.reverse h1 hanc (fun x hx => ?_) (by simp; omega)
    obtain ⟨a, b, -⟩ := hcold x (by rw [e]; simpa [or_comm] using hx)
    exact ⟨a, b⟩

/-- There are well-formed routes of any number of trips, with an environment where nothing is unusual. -/
theorem long_route (n : Nat) : ∃ (h : Heap) (r : Nat), WellFormed h.core r ∧ CachesAgree demoEnv h r ∧
    (h.core.route r).stops.length = 2 * n + 2 ∧ ∀ t ∈ tripsOf h.core r, t < n := by
  induction n with
  | zero =>
    obtain ⟨h', -, inv, -, -, -, hd⟩ := newRoute_inv (E := demoEnv) (md := .any) 0 Inv.empty
    obtain ⟨hw, ha⟩ := inv.report (.inr rfl)
    refine ⟨h', _, hw, ha, ?_, ?_⟩
    · have := congrArg List.length hd
      simpa [duties, itinerary] using this
    · rw [picks_duties, hd]; simp
  | succ n ih =>
    obtain ⟨h, r, hw, ha, hlen, ht⟩ := ih
    obtain ⟨rs, cands, h', -, -, -, hc, hd, hq, -⟩ := C21_candidates demoEnv_ok false h r 0 1 [n] hw ha (by omega) (by omega)
      (by intro t h1 h2; simp at h1; subst h1; exact absurd (ht t h2) (by omega))
    simp only [List.length_singleton, List.range'_one] at hc
    subst hc
    simp only [List.map_cons, List.map_nil, List.cons.injEq, and_true] at hd
    obtain ⟨-, hw', ha'⟩ := hq h.core.nRoute (by simp)
    refine ⟨h', h.core.nRoute, hw', ha', ?_, ?_⟩
    · have hl : (duties h.core r).length = 2 * n + 2 := by simpa [duties, itinerary] using hlen
      have := congrArg List.length hd
      simp only [withTrip, List.length_append, List.length_cons, List.length_take, List.length_drop, hl] at this
      simp only [duties, itinerary, List.length_map] at this
      omega
    · intro t h1
      rw [picks_duties, hd] at h1
      have h2 := (withTrip_picks demoEnv (t := n) (l := duties h.core r) (show 0 < 1 by omega)).mem_iff.1 h1
      rw [List.mem_cons, ← picks_duties] at h2
      rcases h2 with rfl | h2
      · omega
      · have := ht t h2; omega

/-- **C112, second half.** The claim fails for every limit. -/
theorem C112_claim_fails (L : Nat) : ¬ EveryRouteTimed L := by
  intro hall
  obtain ⟨h, r, hw, ha, hl, -⟩ := long_route L
  have e1 : flushRoute r h = (.ok (), (flushRoute r h).2) := rfl
  obtain ⟨v, h2, e⟩ := hall demoEnv h _ r demoEnv_ok hw ha e1
  have := (C112_partial (E := demoEnv) L h r hw ha).2 _ e1
  rw [this.2.2.2 (by omega)] at e
  cases e

/-- The demo route has six stops: six nested computations suffice after a flush, five do not; before the flush one
is enough, as all is memoised. -/
example : (demoHeap.core.route 2).stops.length = 6 ∧
    (lastDepartureWithin demoEnv 6 2 (flushRoute 2 demoHeap).2).1 = .ok 34 ∧
    (lastDepartureWithin demoEnv 5 2 (flushRoute 2 demoHeap).2).1 = .error .recursionError ∧
    (lastDepartureWithin demoEnv 1 2 demoHeap).1 = .ok 34 := by decide +kernel

end Jinete
