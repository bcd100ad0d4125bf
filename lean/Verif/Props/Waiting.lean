import Verif.Props.Strategy

/-!
# C63, C64: waiting at the first served stop, and placements that are rejected
-/

set_option autoImplicit false

namespace Jinete

variable {E : Env}

/-! ## The first two visits -/

theorem vehicleTimetable_two (veh : Vehicle) (v u : Visit) (l : List Visit) : vehicleTimetable E veh (v :: u :: l) =
    serve E veh.origin.earliest veh.origin.position v ::
      serve E (serve E veh.origin.earliest veh.origin.position v).dep v.pos u ::
        timetable E (serve E (serve E veh.origin.earliest veh.origin.position v).dep v.pos u).dep u.pos l := rfl

/-- A stop at which nobody gets on or off. -/
theorem serve_idle {t : ℚ} {p : Pos} {v : Visit} (hp : v.picks = []) (hd : v.drops = []) :
    (serve E t p v).dep = max (max (v.request.getD (t + E.metric p v.pos)) 0) (t + E.metric p v.pos) := by
  simp [serve, Visit.earliest, Visit.loadTime, hp, hd, maxD]

/-- Postponing the departure changes neither the service at the second visit nor anything later. -/
theorem postponed_times (veh : Vehicle) {v u : Visit} (l : List Visit) (hp : v.picks = []) (hd : v.drops = []) :
    ∃ a a' b b' T, vehicleTimetable E veh (v :: u :: l) = a :: b :: T ∧
      vehicleTimetable E veh (postponed E veh (v :: u :: l)) = a' :: b' :: T ∧ a'.arr = a.arr ∧ b'.start = b.start ∧
      b'.dep = b.dep ∧ a.arr = veh.origin.earliest + E.metric veh.origin.position v.pos ∧
      a.dep = max (max (v.request.getD a.arr) 0) a.arr ∧ b.arr = a.dep + E.metric v.pos u.pos ∧
      b'.arr = a'.dep + E.metric v.pos u.pos ∧ firstWait E veh (v :: u :: l) = b.start - b.arr ∧ b.arr ≤ b.start ∧
      a'.dep = if b.start = b.arr then a.dep else max (b.start - b.arr) a.arr := by
  have hT := vehicleTimetable_two (E := E) veh v u l
  set a := serve E veh.origin.earliest veh.origin.position v with ha
  set b := serve E a.dep v.pos u with hb
  have hadep : a.dep = max (max (v.request.getD a.arr) 0) a.arr := by rw [ha, serve_idle hp hd]; rfl
  have hbs : b.arr ≤ b.start := le_max_right _ _
  have hf : firstWait E veh (v :: u :: l) = b.start - b.arr := by unfold firstWait; rw [hT]
  by_cases h0 : b.start = b.arr
  · refine ⟨a, a, b, b, _, hT, ?_, rfl, rfl, rfl, rfl, hadep, rfl, rfl, hf, hbs, by rw [if_pos h0]⟩
    unfold postponed
    rw [if_pos (by rw [hf, h0, sub_self]), hT]
  · have hw : firstWait E veh (v :: u :: l) ≠ 0 := fun e => h0 (sub_eq_zero.1 (hf ▸ e))
    have hP : postponed E veh (v :: u :: l) = { v with request := some (b.start - b.arr) } :: u :: l := by
      unfold postponed
      rw [if_neg hw, hf]
    set v' : Visit := { v with request := some (b.start - b.arr) } with hv'
    have hT' := vehicleTimetable_two (E := E) veh v' u l
    set a' := serve E veh.origin.earliest veh.origin.position v' with ha'
    set b' := serve E a'.dep v'.pos u with hb'
    have wpos : 0 < b.start - b.arr := lt_of_le_of_ne (by linarith) (fun e => h0 (by linarith))
    have harr : a'.arr = a.arr := rfl
    have ha'dep : a'.dep = max (b.start - b.arr) a.arr := by
      rw [ha', serve_idle (by exact hp) (by exact hd), max_eq_left (a := v'.request.getD _) (by exact le_of_lt wpos)]
      rfl
    have hge : 0 ≤ a.dep ∧ a.arr ≤ a.dep := by
      rw [hadep]
      exact ⟨le_trans (le_max_right _ _) (le_max_left _ _), le_max_right _ _⟩
    have hle : a'.dep ≤ a.dep + (b.start - b.arr) := by
      rw [ha'dep]
      exact max_le (by linarith) (by linarith)
    have hbst : b.start = max (max (u.request.getD b.arr) (u.earliest E)) b.arr := rfl
    have hb'st : b'.start = max (max (u.request.getD b'.arr) (u.earliest E)) b'.arr := rfl
    have hbarr : b.arr = a.dep + E.metric v.pos u.pos := rfl
    have hb'arr : b'.arr = a'.dep + E.metric v.pos u.pos := rfl
    have hle' : b'.arr ≤ b.start := by rw [hb'arr]; linarith
    have hstart : b'.start = b.start := by
      cases hr : u.request with
      | some q =>
        rw [hr, Option.getD_some] at hbst hb'st
        have hm : b.start = max q (u.earliest E) := by
          rcases max_choice (max q (u.earliest E)) b.arr with h | h
          · rw [hbst, h]
          · exact absurd (hbst.trans h) h0
        rw [hb'st, ← hm]
        exact max_eq_left hle'
      | none =>
        rw [hr, Option.getD_none] at hbst hb'st
        have hm : b.start = u.earliest E := by
          have h1 : max (max b.arr (u.earliest E)) b.arr = max b.arr (u.earliest E) := max_eq_left (le_max_left _ _)
          rw [h1] at hbst
          rcases max_choice b.arr (u.earliest E) with h | h
          · exact absurd (hbst.trans h) h0
          · rw [hbst, h]
        rw [hb'st, ← hm, max_eq_right hle', max_eq_left hle']
    have hdep : b'.dep = b.dep := by
      have e1 : b.dep = b.start + u.loadTime E := rfl
      have e2 : b'.dep = b'.start + u.loadTime E := rfl
      rw [e1, e2, hstart]
    refine ⟨a, a', b, b', _, hT, ?_, harr, hstart, hdep, rfl, hadep, hbarr, hb'arr, hf, hbs, by rw [if_neg h0, ha'dep]⟩
    rw [hP, hT', hdep]

/-- The wait that is left: nothing, or what the depot already waited for beyond its opening. -/
theorem postponed_wait (veh : Vehicle) {v u : Visit} (l : List Visit) (hp : v.picks = []) (hd : v.drops = []) :
    firstWait E veh (postponed E veh (v :: u :: l)) = 0 ↔
      firstWait E veh (v :: u :: l) = 0 ∨
      ∀ x ∈ (vehicleTimetable E veh (v :: u :: l)).head?,
        x.dep + firstWait E veh (v :: u :: l) ≤ max (firstWait E veh (v :: u :: l)) x.arr := by
  obtain ⟨a, a', b, b', T, e1, e2, h1, h2, h3, h4, h5, h6, h7, h8, h9, h10⟩ := postponed_times (E := E) veh (u := u) l hp hd
  have hf' : firstWait E veh (postponed E veh (v :: u :: l)) = b'.start - b'.arr := by
    rw [show firstWait E veh (postponed E veh (v :: u :: l)) = _ from by rw [firstWait, e2]]
  rw [hf', h8, e1]
  simp only [List.head?_cons, Option.mem_some_iff, forall_eq']
  have hle : 0 ≤ b.start - b.arr := by linarith
  by_cases h0 : b.start = b.arr
  · rw [if_pos h0] at h10
    simp only [h0, sub_self, true_or, iff_true]
    rw [h2, h7, h10, ← h6, h0, sub_self]
  · rw [if_neg h0] at h10
    have hne : b.start - b.arr ≠ 0 := fun e => h0 (sub_eq_zero.1 e)
    simp only [hne, false_or]
    have hge : 0 ≤ a.dep ∧ a.arr ≤ a.dep := by
      rw [h5]
      exact ⟨le_trans (le_max_right _ _) (le_max_left _ _), le_max_right _ _⟩
    have hup : max (b.start - b.arr) a.arr ≤ a.dep + (b.start - b.arr) := max_le (by linarith) (by linarith)
    rw [h2, h7, h10, h6]
    rw [h6] at hup
    constructor
    · intro h; linarith
    · intro h; linarith [le_antisymm hup h]

theorem loads_duty (E : Env) (l l' : List Visit) (h : l.map Visit.duty = l'.map Visit.duty) : ∀ q, loads E q l = loads E q l' := by
  induction l generalizing l' with
  | nil =>
    cases l' with
    | nil => intro q; rfl
    | cons a b => simp at h
  | cons v l ih =>
    cases l' with
    | nil => simp at h
    | cons a b =>
      intro q
      simp only [List.map_cons, List.cons.injEq] at h
      have h1 : v.picks = a.picks := congrArg Duty.picks h.1
      have h2 : v.drops = a.drops := congrArg Duty.drops h.1
      simp only [loads, h1, h2, ih b h.2]

theorem postponed_duty (veh : Vehicle) (l : List Visit) : (postponed E veh l).map Visit.duty = l.map Visit.duty := by
  unfold postponed
  split
  · rfl
  · cases l with
    | nil => rfl
    | cons v l => rfl

/-- Postponing the departure keeps an itinerary feasible, unless it makes the route longer. -/
theorem postponed_feasible (veh : Vehicle) {v u : Visit} (l : List Visit) (hp : v.picks = []) (hd : v.drops = [])
    (hf : FeasibleItinerary E veh (v :: u :: l)) (hq : v.request = none ∨ veh.timeout = .inf) :
    FeasibleItinerary E veh (postponed E veh (v :: u :: l)) := by
  obtain ⟨a, a', b, b', T, e1, e2, h1, h2, h3, h4, h5, h6, h7, h8, h9, h10⟩ := postponed_times (E := E) veh (u := u) l hp hd
  have hpost : ∃ v' : Visit, postponed E veh (v :: u :: l) = v' :: u :: l ∧ v'.pos = v.pos ∧ v'.picks = [] ∧ v'.drops = [] := by
    unfold postponed
    split
    · exact ⟨v, rfl, rfl, hp, hd⟩
    · exact ⟨_, rfl, rfl, hp, hd⟩
  obtain ⟨v', ev, v1, v2, v3⟩ := hpost
  have hlast : ∀ y, y ∈ (a' :: b' :: T).getLast? → ∃ y0, y0 ∈ (a :: b :: T).getLast? ∧ y.dep = y0.dep := by
    intro y hy
    cases T with
    | nil => simp at hy; exact ⟨b, by simp, by rw [← hy, h3]⟩
    | cons c T =>
      simp only [List.getLast?_cons_cons] at hy ⊢
      exact ⟨y, hy, rfl⟩
  constructor
  · have hv := hf.vehicle
    refine ⟨?_, ?_, ?_, ?_, ?_⟩
    · have := hv.startPos
      rw [ev]
      simpa [v1] using this
    · have := hv.startTime
      rw [e1] at this
      rw [e2]
      intro x hx
      simp only [List.head?_cons, Option.mem_some_iff] at hx
      rw [← hx, h1]
      exact this a (by simp)
    · have := hv.endPos
      rw [ev]
      simpa using this
    · intro y hy
      rw [e2] at hy
      obtain ⟨y0, hy0, e⟩ := hlast y hy
      rw [e]
      exact hv.endTime y0 (by rw [e1]; exact hy0)
    · intro x hx y hy
      rw [e2] at hx hy
      simp only [List.head?_cons, Option.mem_some_iff] at hx
      subst hx
      obtain ⟨y0, hy0, e⟩ := hlast y hy
      rw [e]
      have hdur := hv.duration a (by rw [e1]; simp) y0 (by rw [e1]; exact hy0)
      rcases hq with hq | hq
      · have hge : a.dep ≤ a'.dep := by
          rw [h10]
          split
          · exact le_refl _
          · rename_i h0
            have wpos : 0 < b.start - b.arr := lt_of_le_of_ne (by linarith) (fun e => h0 (by linarith))
            rw [h5, hq, Option.getD_none]
            refine max_le (max_le (le_max_right _ _) ?_) (le_max_right _ _)
            exact le_trans wpos.le (le_max_left _ _)
        exact Bound.leQ_mono (by linarith) hdur
      · rw [hq]; rfl
  · intro i j w w' x y q q' t hi hj hx hy hlq hlq' ht ht'
    have key : ∀ (k : Nat) (w : Visit), (postponed E veh (v :: u :: l))[k]? = some w → (w.picks ≠ [] ∨ w.drops ≠ []) →
        (v :: u :: l)[k]? = some w ∧ ∀ x : Tm, (a' :: b' :: T)[k]? = some x → ∃ x0 : Tm, (a :: b :: T)[k]? = some x0 ∧
          x.start = x0.start ∧ x.dep = x0.dep := by
      intro k w hk hne
      rw [ev] at hk
      match k with
      | 0 =>
        simp only [List.getElem?_cons_zero, Option.some.injEq] at hk
        subst hk
        simp [v2, v3] at hne
      | 1 =>
        refine ⟨hk, fun x hx => ⟨b, rfl, ?_⟩⟩
        simp only [List.getElem?_cons_succ, List.getElem?_cons_zero, Option.some.injEq] at hx
        subst hx
        exact ⟨h2, h3⟩
      | k + 2 =>
        exact ⟨hk, fun x hx => ⟨x, hx, rfl, rfl⟩⟩
    rw [e2] at hx hy
    obtain ⟨i1, i2⟩ := key i w hi (.inl (List.ne_nil_of_mem ht))
    obtain ⟨j1, j2⟩ := key j w' hj (.inr (List.ne_nil_of_mem ht'))
    obtain ⟨x0, hx0, xs, xd⟩ := i2 x hx
    obtain ⟨y0, hy0, ys, yd⟩ := j2 y hy
    have hl := loads_duty E _ _ (postponed_duty (E := E) veh (v :: u :: l)) 0
    rw [hl] at hlq hlq'
    have ok := hf.trips i j w w' x0 y0 q q' t i1 j1 (by rw [e1]; exact hx0) (by rw [e1]; exact hy0) hlq hlq' ht ht'
    exact ⟨by rw [xs]; exact ok.pickEarliest, by rw [xs]; exact ok.pickLatest, by rw [ys]; exact ok.dropEarliest,
      by rw [ys]; exact ok.dropLatest, ok.pickLoad, ok.dropLoad, by rw [ys, xd]; exact ok.ride⟩

/-! ## One insertion, exactly -/

theorem withVisits_two {t i j : Nat} {l : List Visit} (hl : 2 ≤ l.length) :
    ∃ u m, withVisits E t i j l = l.headD ⟨[], none, [], []⟩ :: u :: m := by
  match l, hl with
  | a :: b :: l, _ =>
    unfold withVisits
    cases i with
    | zero => exact ⟨_, _, rfl⟩
    | succ i => exact ⟨_, _, rfl⟩

theorem WellFormed.first {c : Core} {r : Nat} (hw : WellFormed c r) :
    ∃ v l, itinerary c r = v :: l ∧ 2 ≤ (v :: l).length ∧ v.picks = [] ∧ v.drops = [] := by
  have hlen := hw.length
  cases hs : (c.route r).stops with
  | nil => rw [hs] at hlen; simp at hlen
  | cons s m =>
    have hd := hw.depot s (by rw [hs]; rfl)
    refine ⟨visitOf c s, m.map (visitOf c), by unfold itinerary; rw [hs]; rfl, ?_, by simp [visitOf, hd.1], by simp [visitOf, hd.2]⟩
    rw [hs] at hlen
    simpa using hlen

/-- With a requested depot start only, the route built from `l` by an insertion starts as `l` does. -/
theorem withVisits_first {c : Core} {r : Nat} (hw : WellFormed c r) (t i j : Nat) :
    ∃ v u m, withVisits E t i j (itinerary c r) = v :: u :: m ∧ (itinerary c r).head? = some v ∧ v.picks = [] ∧ v.drops = [] := by
  obtain ⟨v, l, e, hl, hp, hd⟩ := hw.first
  obtain ⟨u, m, e'⟩ := withVisits_two (E := E) (t := t) (i := i) (j := j) (l := itinerary c r) (by rw [e]; exact hl)
  rw [e, List.headD_cons] at e'
  exact ⟨v, u, m, by rw [e]; exact e', by rw [e]; rfl, hp, hd⟩

/-- One insertion in a reached state when no trip has a maximum ride time. -/
theorem compute_one_exact (hE : EnvOK E) (hx : ∀ t, (E.trip t).timeout = .inf) {h : Heap} {r t i j : Nat} (f : Bool)
    (hr : Reach E h) (hrn : r < h.core.nRoute) (hij : i < j) (hj : j < (h.core.route r).stops.length) (ht : t ∉ tripsOf h.core r) :
    ∃ q b h', compute E f r [t] i j h = (.ok (if !f || b then [q] else []), h') ∧ WellFormed h'.core q ∧
      (h'.core.route q).vehicle = (h.core.route r).vehicle ∧ duties h'.core q = withTrip E t i j (duties h.core r) ∧
      (b = true ↔ FeasibleItinerary E (E.vehicle (h.core.route r).vehicle)
        (postponed E (E.vehicle (h.core.route r).vehicle) (withVisits E t i j (itinerary h.core r)))) ∧
      routeTimetable E h'.core q = vehicleTimetable E (E.vehicle (h.core.route r).vehicle)
        (postponed E (E.vehicle (h.core.route r).vehicle) (withVisits E t i j (itinerary h.core r))) := by
  have inv := hr.inv (md := .exact) hE fun _ => hx
  obtain ⟨q, b, h1, e1, o⟩ := computeOne_run hE inv (show Live h r from hrn) hij hj ht fun _ => hx
  have hk : ∃ h2, keepRoute E f q h1 = (.ok (!f || b), h2) ∧ GrowsV E h1 h2 := by
    unfold keepRoute
    cases f with
    | false => exact ⟨h1, rfl, GrowsV.refl _⟩
    | true =>
      obtain ⟨h2, e, g, _⟩ := routeFeasible_memo hE (o.inv.ok.wf q Plus.right) rfl (o.inv.ok.agree q Plus.right)
      have : effR E h1 q = b := by simp [effR, o.judged.memo]
      rw [this] at e
      exact ⟨h2, by simpa using e, g⟩
  obtain ⟨h2, e2, g2⟩ := hk
  refine ⟨q, b, h2, ?_, ?_, ?_, ?_, o.verdict rfl, ?_⟩
  · unfold compute
    have : decide (i < j) = true := by simpa using hij
    rw [this, Py.bind_ok (Py.assert_true h)]
    simp only [computeEach]
    rw [Py.bind_ok e1, Py.bind_ok e2]
    cases hb : (!f || b) <;> rfl
  · rw [g2.core]; exact o.inv.ok.wf q Plus.right
  · rw [g2.core]; exact o.vehicle
  · rw [g2.core]; exact o.duties
  · rw [g2.core]; exact o.times rfl

/-! ## C63 -/

/-- C63 in full: the vehicle of a returned route does not wait at the first served stop. -/
def NoFirstWait (E : Env) : Prop :=
  ∀ (h h' : Heap) (r i j : Nat) (ts rs : List Nat), Reach E h → r < h.core.nRoute → i < j →
    j < (h.core.route r).stops.length → (∀ t ∈ ts, t ∉ tripsOf h.core r) → compute E true r ts i j h = (.ok rs, h') →
    ∀ q ∈ rs, firstWait E (E.vehicle (h'.core.route q).vehicle) (itinerary h'.core q) = 0

/-- **C63 (partial).** In every reached state, when no trip has a maximum ride time, the route returned for one trip has
the timetable of the draft (the itinerary with both visits inserted, as early as possible) with the wait at the first
served stop as requested start of the depot. So every service but the depot's is as in the draft, and the vehicle does
not wait at the first served stop if and only if the draft did not wait there or the wait, as a time of day, is late
enough: `departure + wait ≤ max wait arrival` at the depot. In particular it never waits if the depot opens at 0 (the
vehicle drives from its origin to its origin in no time) and has not been postponed before. What is missing: otherwise
it may wait (`C63_waits_late_depot`, `C63_waits_again`), because the code takes the length of the wait for the time to
leave; and rides with a maximum time. -/
theorem C63_first_wait_partial (hE : EnvOK E) (hx : ∀ t, (E.trip t).timeout = .inf) (h h' : Heap) (r t i j q : Nat) (f : Bool)
    (hr : Reach E h) (hrn : r < h.core.nRoute) (hij : i < j) (hj : j < (h.core.route r).stops.length) (ht : t ∉ tripsOf h.core r)
    (e : compute E f r [t] i j h = (.ok [q], h')) :
    let veh := E.vehicle (h.core.route r).vehicle
    let draft := withVisits E t i j (itinerary h.core r)
    routeTimetable E h'.core q = vehicleTimetable E veh (postponed E veh draft) ∧
    (routeTimetable E h'.core q).tail.map (fun x => (x.start, x.dep)) =
      (vehicleTimetable E veh draft).tail.map (fun x => (x.start, x.dep)) ∧
    (firstWait E (E.vehicle (h'.core.route q).vehicle) (itinerary h'.core q) = 0 ↔
      firstWait E veh draft = 0 ∨ ∀ x ∈ (routeTimetable E h.core r).head?,
        x.dep + firstWait E veh draft ≤ max (firstWait E veh draft) x.arr) ∧
    ((∀ x ∈ (routeTimetable E h.core r).head?, x.dep = 0) →
      firstWait E (E.vehicle (h'.core.route q).vehicle) (itinerary h'.core q) = 0) := by
  intro veh draft
  obtain ⟨q', b, h2, e', hw, hv, -, -, htt⟩ := compute_one_exact hE hx f hr hrn hij hj ht
  rw [e] at e'
  obtain ⟨e1, rfl⟩ := Prod.mk.inj e'
  have : q' = q := by
    have := Except.ok.inj e1
    split at this
    · simpa using this.symm
    · simp at this
  subst this
  have hw0 := (hr.inv (md := .any) hE (fun h => nomatch h)).ok.wf r hrn
  obtain ⟨v, u, m, ed, eh, hp, hd⟩ := withVisits_first (E := E) hw0 t i j
  have hwait : firstWait E (E.vehicle (h'.core.route q').vehicle) (itinerary h'.core q') = firstWait E veh (postponed E veh draft) := by
    have h1 : vehicleTimetable E (E.vehicle (h'.core.route q').vehicle) (itinerary h'.core q') =
      vehicleTimetable E veh (postponed E veh draft) := htt
    unfold firstWait
    rw [h1]
  have hhead : (vehicleTimetable E veh draft).head? = (routeTimetable E h.core r).head? := by
    obtain ⟨l, hl⟩ : ∃ l, itinerary h.core r = v :: l := by
      cases hi : itinerary h.core r with
      | nil => rw [hi] at eh; simp at eh
      | cons a l => rw [hi] at eh; simp at eh; exact ⟨l, by rw [eh]⟩
    show (vehicleTimetable E veh (withVisits E t i j (itinerary h.core r))).head? = (vehicleTimetable E veh (itinerary h.core r)).head?
    rw [ed, hl]
    rfl
  have key := postponed_wait (E := E) veh (v := v) (u := u) m hp hd
  rw [← ed, hhead] at key
  refine ⟨htt, ?_, by rw [hwait]; exact key, ?_⟩
  · obtain ⟨a, a', b, b', T, t1, t2, -, t3, t4, -⟩ := postponed_times (E := E) veh (u := u) m hp hd
    rw [htt]
    show (vehicleTimetable E veh (postponed E veh (withVisits E t i j (itinerary h.core r)))).tail.map _ =
      (vehicleTimetable E veh (withVisits E t i j (itinerary h.core r))).tail.map _
    rw [ed, t1, t2]
    simp [t3, t4]
  · intro h0
    rw [hwait]
    refine key.2 (.inr fun x hx => ?_)
    rw [h0 x hx, zero_add]
    exact le_max_left _ _

/-! ## C64 -/

/-- C64 in full: an insertion that is feasible when all visits are as early as possible is not rejected. -/
def NothingRejected (E : Env) : Prop :=
  ∀ (h h' : Heap) (r t i j : Nat) (rs : List Nat), Reach E h → r < h.core.nRoute → i < j →
    j < (h.core.route r).stops.length → t ∉ tripsOf h.core r → compute E true r [t] i j h = (.ok rs, h') →
    FeasibleItinerary E (E.vehicle (h.core.route r).vehicle) (withVisits E t i j (asSoonAsPossible (itinerary h.core r))) →
    rs ≠ []

/-- **C64 (partial).** In every reached state, when no trip has a maximum ride time, for each trip of a call to `compute`
(a single trip, or any number if the insertion is before the second served stop or the vehicle does not wait at the
first one): its insertion is returned if and only if the draft, with the departure postponed by the code's rule, meets
all routing constraints. So nothing is rejected wrongly if the requested starts left over from earlier insertions do
no harm: if the draft with them is feasible and either the depot has none or the duration of the route is not limited;
in particular not if the route has no requested starts at all. What is missing: left over requested starts do get
feasible insertions rejected (`C64_rejected`); and rides with a maximum time. -/
theorem C64_rejections_partial (hE : EnvOK E) (hx : ∀ t, (E.trip t).timeout = .inf) (h : Heap) (r i j : Nat) (ts : List Nat)
    (hr : Reach E h) (hrn : r < h.core.nRoute) (hij : i < j) (hj : j < (h.core.route r).stops.length)
    (hts : ∀ t ∈ ts, t ∉ tripsOf h.core r)
    (hcalm : ts.length ≤ 1 ∨ i ≤ 1 ∨ firstWait E (E.vehicle (h.core.route r).vehicle) (itinerary h.core r) = 0) :
    let veh := E.vehicle (h.core.route r).vehicle
    ∃ rs h', compute E true r ts i j h = (.ok rs, h') ∧ ∀ t ∈ ts,
      ((∃ q ∈ rs, duties h'.core q = withTrip E t i j (duties h.core r)) ↔
        FeasibleItinerary E veh (postponed E veh (withVisits E t i j (itinerary h.core r)))) ∧
      (FeasibleItinerary E veh (withVisits E t i j (itinerary h.core r)) →
        (∀ v ∈ (itinerary h.core r).head?, v.request = none) ∨ veh.timeout = .inf →
        ∃ q ∈ rs, duties h'.core q = withTrip E t i j (duties h.core r)) ∧
      ((∀ v ∈ itinerary h.core r, v.request = none) →
        FeasibleItinerary E veh (withVisits E t i j (asSoonAsPossible (itinerary h.core r))) →
        ∃ q ∈ rs, duties h'.core q = withTrip E t i j (duties h.core r)) := by
  intro veh
  have inv := hr.inv (md := .exact) hE fun _ => hx
  have hw0 := inv.ok.wf r hrn
  obtain ⟨cand, h', e, ba⟩ := compute_run hE (fun _ => hx) true inv (show Live h r from hrn) ts hij hj hts
  have hcond : (ts.map fun t => (t, i, j)).length ≤ 1 ∨ (∀ x ∈ ts.map fun t => (t, i, j), x.2.1 ≤ 1) ∨ Calm E h.core r := by
    rcases hcalm with hc | hc | hc
    · left; simpa using hc
    · right; left
      intro x hxm
      obtain ⟨t, -, rfl⟩ := List.mem_map.1 hxm
      exact hc
    · right; right
      intro s hs
      have hT := hw0.toChained.timetable_map (E := E)
      have hlen := hw0.length
      match hh : (h.core.route r).stops, hlen with
      | s0 :: s1 :: m, _ =>
        rw [hh] at hs hT
        simp at hs
        subst hs
        have h1 : vehicleTimetable E (E.vehicle (h.core.route r).vehicle) (itinerary h.core r) = _ := hT
        unfold firstWait at hc
        rw [h1] at hc
        exact sub_eq_zero.1 hc
  have verd := ba.verdict rfl hcond
  have hlen : cand.length = ts.length := by
    have := congrArg List.length ba.ids
    simpa using this
  have hd := ba.duties
  have main : ∀ t ∈ ts, (∃ q ∈ (cand.filter fun c => !true || c.2).map Prod.fst, duties h'.core q = withTrip E t i j (duties h.core r)) ↔
      FeasibleItinerary E veh (postponed E veh (withVisits E t i j (itinerary h.core r))) := by
    intro t ht
    have pair : ∀ (k : Nat) (c : Nat × Bool), cand[k]? = some c → ∃ t', ts[k]? = some t' ∧ duties h'.core c.1 = withTrip E t' i j (duties h.core r) ∧
        (c.2 = true ↔ FeasibleItinerary E veh (postponed E veh (withVisits E t' i j (itinerary h.core r)))) := by
      intro k c hk
      have hkl : k < ts.length := by
        rw [← hlen]
        exact (List.getElem?_eq_some_iff.1 hk).1
      refine ⟨ts[k], List.getElem?_eq_getElem hkl, ?_, ?_⟩
      · have := congrArg (fun l => l[k]?) hd
        simp only [List.getElem?_map, hk, List.getElem?_eq_getElem hkl, Option.map_some, Option.some.injEq] at this
        exact this
      · refine verd (c, (ts[k], i, j)) ?_
        refine List.mem_of_getElem? (i := k) ?_
        rw [List.getElem?_zip_eq_some]
        exact ⟨hk, by rw [List.getElem?_map, List.getElem?_eq_getElem hkl]; rfl⟩
    constructor
    · rintro ⟨q, hq, hqd⟩
      obtain ⟨c, hc, rfl⟩ := List.mem_map.1 hq
      obtain ⟨hcm, hcb⟩ := List.mem_filter.1 hc
      obtain ⟨k, hk⟩ := List.getElem?_of_mem hcm
      obtain ⟨t', -, h2, h3⟩ := pair k c hk
      have : t' = t := by
        rw [h2] at hqd
        have hl : i + 1 ≤ (duties h.core r).length := by
          have : (duties h.core r).length = (h.core.route r).stops.length := by simp [duties, itinerary]
          omega
        have := congrArg (fun l => l[i + 1]?) hqd
        have hidx : ∀ t, (withTrip E t i j (duties h.core r))[i + 1]? = some (pickDuty E t) := by
          intro t
          unfold withTrip
          rw [List.getElem?_append_right (by rw [List.length_take]; omega), List.length_take, min_eq_left hl, Nat.sub_self]
          rfl
        simp only [hidx, Option.some.injEq] at this
        simpa [pickDuty] using congrArg Duty.picks this
      subst this
      exact h3.1 (by simpa using hcb)
    · intro hf
      obtain ⟨k, hk⟩ := List.getElem?_of_mem ht
      have hkl : k < cand.length := by
        rw [hlen]
        exact (List.getElem?_eq_some_iff.1 hk).1
      obtain ⟨t', h1, h2, h3⟩ := pair k cand[k] (List.getElem?_eq_getElem hkl)
      have : t' = t := by rw [hk] at h1; exact (Option.some.inj h1).symm
      subst this
      refine ⟨cand[k].1, List.mem_map.2 ⟨cand[k], List.mem_filter.2 ⟨List.getElem_mem _, ?_⟩, rfl⟩, h2⟩
      simpa using h3.2 hf
  have second : ∀ t, FeasibleItinerary E veh (withVisits E t i j (itinerary h.core r)) →
      ((∀ v ∈ (itinerary h.core r).head?, v.request = none) ∨ veh.timeout = .inf) →
      FeasibleItinerary E veh (postponed E veh (withVisits E t i j (itinerary h.core r))) := by
    intro t hf hq
    obtain ⟨v, u, m, ed, eh, hp, hd⟩ := withVisits_first (E := E) hw0 t i j
    rw [ed] at hf ⊢
    exact postponed_feasible veh m hp hd hf (hq.imp_left fun h => h v eh)
  refine ⟨_, h', e, fun t ht => ⟨main t ht, fun hf hq => (main t ht).2 (second t hf hq), fun hn hf => ?_⟩⟩
  have hs : asSoonAsPossible (itinerary h.core r) = itinerary h.core r := by
    unfold asSoonAsPossible
    conv => rhs; rw [← List.map_id (itinerary h.core r)]
    refine List.map_congr_left fun v hv => ?_
    rw [← hn v hv]
    rfl
  rw [hs] at hf
  refine (main t ht).2 (second t hf (.inl fun v hv => hn v ?_))
  exact List.mem_of_mem_head? hv

/-! ## Witnesses -/

/-- A checker for the routing constraints. -/
def feasibleB (E : Env) (veh : Vehicle) (l : List Visit) : Bool :=
  let T := vehicleTimetable E veh l
  let q := loads E 0 l
  decide (l.head?.map Visit.pos = some veh.origin.position) &&
  decide (l.getLast?.map Visit.pos = some veh.destination.position) &&
  T.head?.all (fun x => decide (veh.origin.earliest - errorBound ≤ x.arr)) &&
  T.getLast?.all (fun y => (veh.destination.latest.addQ errorBound).leQ y.dep) &&
  T.head?.all (fun x => T.getLast?.all fun y => (veh.timeout.addQ errorBound).leQ (y.dep - x.dep)) &&
  (l.zip (T.zip q)).all fun v => (l.zip (T.zip q)).all fun w => v.1.picks.all fun t => !decide (t ∈ w.1.drops) ||
    (decide ((E.trip t).originEarliest ≤ v.2.1.start + errorBound) &&
      (((E.trip t).originLatest E.metric).addQ errorBound).leQ v.2.1.start &&
      decide ((E.trip t).destinationEarliest E.metric ≤ w.2.1.start + errorBound) &&
      (((E.trip t).destinationLatest).addQ errorBound).leQ w.2.1.start &&
      decide (v.2.2 ≤ veh.capacity + errorBound) && decide (w.2.2 ≤ veh.capacity + errorBound) &&
      ((E.trip t).timeout.addQ errorBound).leQ (w.2.1.start - v.2.1.dep))

theorem feasibleB_sound {veh : Vehicle} {l : List Visit} (h : feasibleB E veh l = true) : FeasibleItinerary E veh l := by
  simp only [feasibleB, Bool.and_eq_true, decide_eq_true_eq, Option.all_eq_true, List.all_eq_true, Bool.or_eq_true,
    Bool.not_eq_true', decide_eq_false_iff_not] at h
  obtain ⟨⟨⟨⟨⟨h1, h2⟩, h3⟩, h4⟩, h5⟩, h6⟩ := h
  refine ⟨⟨h1, h3, h2, h4, fun x hx y hy => h5 x hx y hy⟩, ?_⟩
  intro i j v w x y q q' t hi hj hx hy hq hq' ht ht'
  have m1 : (v, (x, q)) ∈ l.zip ((vehicleTimetable E veh l).zip (loads E 0 l)) :=
    List.mem_of_getElem? (i := i) (List.getElem?_zip_eq_some.2 ⟨hi, List.getElem?_zip_eq_some.2 ⟨hx, hq⟩⟩)
  have m2 : (w, (y, q')) ∈ l.zip ((vehicleTimetable E veh l).zip (loads E 0 l)) :=
    List.mem_of_getElem? (i := j) (List.getElem?_zip_eq_some.2 ⟨hj, List.getElem?_zip_eq_some.2 ⟨hy, hq'⟩⟩)
  rcases h6 _ m1 _ m2 t ht with h | ⟨⟨⟨⟨⟨⟨a1, a2⟩, a3⟩, a4⟩, a5⟩, a6⟩, a7⟩
  · exact absurd ht' h
  · exact ⟨a1, a2, a3, a4, a5, a6, a7⟩

/-- Vehicle 0 starts at 5, the others at 0. Trip 0 opens at 100 ten minutes away, trip 1 at 96 five minutes away, trip 2
has to be picked up by 50 three minutes away. -/
def waitEnv : Env where
  metric := manhattan
  trip := fun t =>
    if t = 0 then { origin := { position := [10], earliest := 100, latest := .fin 300 }, destination := { position := [20], latest := .fin 300 } }
    else if t = 1 then { origin := { position := [5], earliest := 96, latest := .fin 300 }, destination := { position := [6], latest := .fin 300 } }
    else { origin := { position := [3], latest := .fin 50 }, destination := { position := [4], latest := .fin 300 } }
  vehicle := fun v => { origin := { position := [0], earliest := if v = 0 then 5 else 0 }, capacity := 3 }

theorem waitEnv_ok : EnvOK waitEnv where
  metric := fun a b => manhattan_nonneg a b
  originDuration := by intro t; simp only [waitEnv]; split_ifs <;> simp
  destinationDuration := by intro t; simp only [waitEnv]; split_ifs <;> simp
  capacity := by intro t; simp only [waitEnv]; split_ifs <;> simp

theorem waitEnv_rides : ∀ t, (waitEnv.trip t).timeout = .inf := by intro t; simp only [waitEnv]; split_ifs <;> rfl

/-- An empty route of vehicle 0. -/
def wait0 : Heap := (newRoute waitEnv 0 Heap.empty).2
/-- An empty route of vehicle 1 too. -/
def wait1 : Heap := (newRoute waitEnv 1 wait0).2
/-- Trip 0 inserted into the route of vehicle 1. -/
def wait2 : Heap := (compute waitEnv true 1 [0] 0 1 wait1).2

theorem wait1_reach : Reach waitEnv wait1 :=
  .newRoute (v := 1) (r := 1) (.newRoute (v := 0) (r := 0) .empty rfl) (Prod.ext (by decide +kernel) rfl)

theorem wait2_reach : Reach waitEnv wait2 :=
  .compute (f := true) (r := 1) (i := 0) (j := 1) (ts := [0]) (rs := [2]) wait1_reach (by decide +kernel) (by decide)
    (by decide +kernel) (by decide +kernel) (Prod.ext (by decide +kernel) rfl)

/-- C63 is false: vehicle 0 could leave its depot at 5. Inserted alone, trip 0 makes it wait for 85; so it is sent off
at 85, not at 90, and still waits for 5. -/
theorem C63_waits_late_depot : ¬ NoFirstWait waitEnv := by
  intro hp
  have := hp wait1 (compute waitEnv true 0 [0] 0 1 wait1).2 0 0 1 [0] [2] wait1_reach (by decide +kernel) (by decide)
    (by decide +kernel) (by decide +kernel) (Prod.ext (by decide +kernel) rfl) 2 (by simp)
  revert this
  decide +kernel

/-- C63 fails with depots that open at 0 too: after trip 0 vehicle 1 leaves at 90. Inserting trip 1 before it leaves a
wait of 1; so the vehicle is sent off at 1, and waits for 90. -/
theorem C63_waits_again : (compute waitEnv true 1 [0] 0 1 wait1).1 = .ok [2] ∧ (compute waitEnv true 2 [1] 0 1 wait2).1 = .ok [3] ∧
    firstWait waitEnv (waitEnv.vehicle 1) (itinerary wait2.core 2) = 0 ∧
    firstWait waitEnv (waitEnv.vehicle 1) (itinerary (compute waitEnv true 2 [1] 0 1 wait2).2.core 3) = 90 := by
  decide +kernel

/-- The hypotheses of `C63_first_wait_partial` hold for both insertions; its last case applies to the first one of
vehicle 1. -/
example : EnvOK waitEnv ∧ (∀ t, (waitEnv.trip t).timeout = .inf) ∧ Reach waitEnv wait1 ∧ Reach waitEnv wait2 ∧
    (∀ x ∈ (routeTimetable waitEnv wait1.core 1).head?, x.dep = 0) ∧
    firstWait waitEnv (waitEnv.vehicle 1) (withVisits waitEnv 0 0 1 (itinerary wait1.core 1)) = 90 :=
  ⟨waitEnv_ok, waitEnv_rides, wait1_reach, wait2_reach, by decide +kernel, by decide +kernel⟩

/-- C64 is false: as early as possible, trip 2 is picked up at 3 on the way to trip 0. But vehicle 1 was told to leave
at 90 for trip 0; the insertion is judged with that departure, reaches trip 2 at 93 instead of 50, and is rejected. -/
theorem C64_rejected : ¬ NothingRejected waitEnv := by
  intro hp
  refine hp wait2 (compute waitEnv true 2 [2] 0 1 wait2).2 2 2 0 1 [] wait2_reach (by decide +kernel) (by decide)
    (by decide +kernel) (by decide +kernel) (Prod.ext (by decide +kernel) rfl) (feasibleB_sound ?_) rfl
  decide +kernel

/-- The hypotheses of `C64_rejections_partial`: two trips at once in a new route, both drafts feasible; and a second
trip in a route that was postponed. -/
example : (∀ t ∈ [0, 2], t ∉ tripsOf wait1.core 1) ∧ (∀ v ∈ itinerary wait1.core 1, v.request = none) ∧
    (∀ t ∈ [0, 2], FeasibleItinerary waitEnv (waitEnv.vehicle 1) (withVisits waitEnv t 0 1 (asSoonAsPossible (itinerary wait1.core 1)))) ∧
    (compute waitEnv true 1 [0, 2] 0 1 wait1).1 = .ok [2, 3] ∧
    FeasibleItinerary waitEnv (waitEnv.vehicle 1) (withVisits waitEnv 1 2 3 (itinerary wait2.core 2)) ∧
    (waitEnv.vehicle 1).timeout = .inf ∧ (itinerary wait2.core 2).head?.map Visit.request = some (some 90) ∧
    (compute waitEnv true 2 [1] 2 3 wait2).1 = .ok [3] := by
  refine ⟨by decide +kernel, by decide +kernel, ?_, by decide +kernel, feasibleB_sound (by decide +kernel), rfl,
    by decide +kernel, by decide +kernel⟩
  intro t ht
  simp only [List.mem_cons, List.not_mem_nil, or_false] at ht
  rcases ht with rfl | rfl <;> exact feasibleB_sound (by decide +kernel)

end Jinete
