import Verif.Props.Programs
import Verif.Props.MilpRoutes

/-!
# C103: the program in examples/ that solves a linear model
-/

set_option autoImplicit false

namespace Jinete

variable {E : Env} {fleet job vs ts : List Nat} {a : Assignment} {o d : Pos}

/-! ## The planning of a solution -/

theorem nodeVisit_duty {k veh i : Nat} (h1 : 1 ≤ i) (h2 : i ≤ 2 * ts.length) :
    ∃ t, (nodeVisit E ts a k veh i).duty = pickDuty E t ∨ (nodeVisit E ts a k veh i).duty = dropDuty E t := by
  by_cases h : i ≤ ts.length
  · refine ⟨ts.getD (i - 1) 0, .inl ?_⟩
    have h3 : ¬ i = 0 := by omega
    have h4 : ¬ ts.length < i := by omega
    simp [nodeVisit, nodePlace, Visit.duty, pickDuty, h, h1, h3, h4]
  · refine ⟨ts.getD (i - ts.length - 1) 0, .inr ?_⟩
    have h3 : ¬ i = 0 := by omega
    have h4 : ts.length < i := by omega
    simp [nodeVisit, nodePlace, Visit.duty, dropDuty, h, h2, h3, h4]

theorem nodes_proper {k veh : Nat} {ns : List Nat} (hin : ∀ i ∈ ns, 1 ≤ i ∧ i ≤ 2 * ts.length) :
    Proper E veh (((0 :: ns).map (nodeVisit E ts a k veh) ++ [homeVisit E veh]).map Visit.duty) := by
  refine ⟨ns.map fun i => (nodeVisit E ts a k veh i).duty, ?_, ?_⟩
  · simp [nodeVisit, nodePlace, Visit.duty, homeVisit, Function.comp_def]
  · intro x hx
    obtain ⟨i, hi, rfl⟩ := List.mem_map.1 hx
    exact nodeVisit_duty (hin i hi).1 (hin i hi).2

theorem Proper.singleVisits {v : Nat} {l : List Duty} (h : Proper E v l) : SingleVisits l := by
  obtain ⟨mid, rfl, hm⟩ := h
  refine ⟨fun x hx => ?_, fun x hx => ?_⟩
  · rcases List.mem_cons.1 hx with rfl | hx
    · simp
    · rcases List.mem_append.1 hx with hx | hx
      · obtain ⟨t, rfl | rfl⟩ := hm x hx <;> simp [pickDuty, dropDuty]
      · rw [List.mem_singleton.1 hx]; simp
  · rw [← List.cons_append, List.getLast?_concat] at hx
    obtain rfl : _ = x := by simpa using hx
    simp

/-- The routes built from a solution are a good plan, each meets all constraints, and together they serve all trips. -/
theorem Modelled.plan (H : Modelled E vs ts a o d) (hv : vs.Perm fleet) (ht : ts.Perm job) (hs : (milpOf E vs ts).solves a = true)
    (h0 : ∀ k < vs.length, ¬ (milpOf E vs ts).Uses a k 0 0) (h : Heap) :
    ∃ rs h', milpOptimize E vs ts a h = (.ok rs, h') ∧ GoodPlan E fleet job h' rs ∧ rs ≠ [] ∧
      (∀ r ∈ rs, FeasibleItinerary E (planOf E h'.core r).1 (planOf E h'.core r).2) ∧
      (rs.flatMap (tripsOf h'.core)).Perm job ∧ ∀ r ∈ rs, NoVerdicts h' r := by
  obtain ⟨ns, h', hns, run, b, made⟩ := H.run hs h0 h
  have served := (H.served hs hns made).1
  have each : ∀ (p : Nat → Prop), (∀ k (_ : k < vs.length), p (h.core.nRoute + k)) → ∀ r ∈ List.range' h.core.nRoute vs.length, p r := by
    intro p hp r hr
    obtain ⟨h1, h2⟩ := List.mem_range'_1.1 hr
    obtain ⟨k, rfl⟩ := Nat.exists_eq_add_of_le h1
    exact hp k (by omega)
  have feas : ∀ r ∈ List.range' h.core.nRoute vs.length, FeasibleItinerary E (planOf E h'.core r).1 (planOf E h'.core r).2 := by
    refine each _ fun k hk => ?_
    unfold planOf
    rw [(made k hk).vehicle, (made k hk).itin]
    exact tour_feasible H hs hk (hns k hk)
  have proper : ProperRoutes E h' (List.range' h.core.nRoute vs.length) := by
    refine each _ fun k hk => ?_
    unfold duties
    rw [(made k hk).vehicle, (made k hk).itin]
    have := (hns k hk).inner
    rw [milpOf_n] at this
    exact nodes_proper this
  refine ⟨_, h', run, ⟨⟨each _ fun k hk => ⟨(made k hk).wf, (made k hk).agree⟩, ?_, ?_, ?_, fun r hr => (proper r hr).singleVisits⟩, proper,
    fun r hr => .inr (feas r hr).loosely, fun _ _ r hr => .inr (feas r hr)⟩, ?_, feas, served.trans ht, each _ fun k hk => (made k hk).verdicts⟩
  · have : (List.range' h.core.nRoute vs.length).map (fun r => (h'.core.route r).vehicle) = vs := by
      refine List.ext_getElem (by simp) fun k h1 h2 => ?_
      simp only [List.getElem_map, List.getElem_range', Nat.one_mul]
      exact (made k h2).vehicle
    rw [this]
    exact hv
  · exact served.nodup_iff.2 (nodup_of_distinct H.places)
  · intro t h1
    exact ht.mem_iff.1 (served.mem_iff.1 h1)
  · intro h1
    exact H.vehicles (by simpa using h1)

theorem logResult_sound (hE : EnvOK E) {k : Objective} {h : Heap} {rs : List Nat} (hne : rs ≠ []) (hs : ∀ r ∈ rs, Sound E h r) :
    ∃ h', logResult E k rs h = (.ok (), h') ∧ GrowsV E h h' := by
  obtain ⟨h1, e1, g1⟩ := planningFeasible_run hE hne hs
  have hs1 : ∀ r ∈ rs, Sound E h1 r := fun r hr => (hs r hr).grows g1
  obtain ⟨h2, e2, g2⟩ := planningValue_reads (E := E) k (fun r hr => (hs1 r hr).1) h1 rfl (Sound.coh hs1)
  refine ⟨h2, ?_, g1.trans g2.toV⟩
  have e2' : resultValue E k rs h1 = (.ok _, h2) := e2
  unfold logResult
  rw [Py.bind_ok e1, Py.bind_ok e2']
  rfl

/-! ## Files -/

/-- The answer is a solution of the linear model, in which no vehicle drives from the depot to itself, and the orders are orders. -/
structure MilpChoices.Solves (A : MilpChoices) (P : Problem) : Prop where
  vehicles : (A.vehicles P.fleet).Perm P.fleet
  trips : (A.trips P.job).Perm P.job
  solves : (milpOf P.env (A.vehicles P.fleet) (A.trips P.job)).solves (A.assignment P) = true
  noLoop : ∀ k < (A.vehicles P.fleet).length, ¬ (milpOf P.env (A.vehicles P.fleet) (A.trips P.job)).Uses (A.assignment P) k 0 0

/-- Cordeau-Laporte data in which nothing takes place twice at one place or at the depot, boarding takes time, and leaving takes no longer
than boarding. -/
structure ApartRows (rows : Rows) (n : Nat) (dx dy : ℚ) : Prop where
  depot : ∀ k < 2 * n, ∀ row x y d q e l, rows[k + 2]? = some row → RequestRow row x y d q e l → [x, y] ≠ [dx, dy]
  places : ∀ k < 2 * n, ∀ k' < 2 * n, k ≠ k' → ∀ row x y d q e l row' x' y' d' q' e' l', rows[k + 2]? = some row → RequestRow row x y d q e l →
    rows[k' + 2]? = some row' → RequestRow row' x' y' d' q' e' l' → [x, y] ≠ [x', y']
  boarding : ∀ k < n, ∀ row x y d q e l, rows[k + 2]? = some row → RequestRow row x y d q e l → 0 < d
  leaving : ∀ k < n, ∀ row x y d q e l row' x' y' d' q' e' l', rows[k + 2]? = some row → RequestRow row x y d q e l →
    rows[k + n + 2]? = some row' → RequestRow row' x' y' d' q' e' l' → d' ≤ d

section File

variable {euclid : Pos → Pos → ℚ} {rows : Rows} {m n : Nat} {T Q L dx dy : ℚ} {P : Problem}

/-- The problem which the loader makes of the text of a file. -/
def LoadedFrom (euclid : Pos → Pos → ℚ) (text : Text) (P : Problem) : Prop :=
  ∃ s s', loaderJob (cordeauFormatter ℚ) (LoaderState.ofText text) = (.ok P.trips, s) ∧ loaderFleet (cordeauFormatter ℚ) s = (.ok P.vehicles, s') ∧
    P.metric = euclid ∧ P.objective = .dialARide

theorem CordeauProblem.ends (hP : CordeauProblem euclid rows m n T Q L dx dy P) {t : Nat} (ht : t < n) :
    ∃ row row' x y d q e l x' y' d' q' e' l', rows[t + 2]? = some row ∧ RequestRow row x y d q e l ∧ rows[t + n + 2]? = some row' ∧
      RequestRow row' x' y' d' q' e' l' ∧ (P.env.trip t).origin.position = [x, y] ∧ (P.env.trip t).origin.duration = d ∧
      (P.env.trip t).destination.position = [x', y'] ∧ (P.env.trip t).destination.duration = d' ∧ (P.env.trip t).destination.latest = .fin l' := by
  obtain ⟨x0, h1⟩ := (getElem?_some_iff P.trips t).1 (by rw [hP.trips]; exact ht)
  obtain ⟨-, -, row, row', h2, h3, ⟨x, y, d, q, e, l, hr, p1, _, _, p2⟩, ⟨x', y', d', q', e', l', hr', p3, _, p4, p5⟩, _⟩ := hP.request t _ h1
  rw [(hP.depicted.trip t _ h1).1]
  exact ⟨row, row', x, y, d, q, e, l, x', y', d', q', e', l', h2, hr, by rw [← h3]; congr 1; omega, hr', p1, p2, p3, p5, p4⟩

theorem CordeauProblem.modelled (hP : CordeauProblem euclid rows m n T Q L dx dy P) (hs : SensibleRows rows n) (hA : ApartRows rows n dx dy)
    (he : ∀ a b, 0 ≤ euclid a b) (hz : ∀ a, euclid a a = 0) (hm : 0 < m) {A : MilpChoices} (hs' : A.Solves P) :
    Modelled P.env (A.vehicles P.fleet) (A.trips P.job) (A.assignment P) [dx, dy] [dx, dy] := by
  have hv : ∀ v ∈ A.vehicles P.fleet, (P.env.vehicle v).origin.position = [dx, dy] ∧ (P.env.vehicle v).destination = (P.env.vehicle v).origin ∧
      (P.env.vehicle v).origin.earliest = 0 ∧ (P.env.vehicle v).origin.latest = .inf := by
    intro v h1
    obtain ⟨x, h2⟩ := (hP.depicted.fleet.2 v).1 (hs'.vehicles.mem_iff.1 h1)
    obtain ⟨-, h3, h4, -⟩ := hP.vehicle v x h2
    obtain ⟨h5, h6⟩ := hP.hours x (List.mem_of_getElem? h2)
    rw [(hP.depicted.vehicle v x h2).1]
    exact ⟨h3, h4, h5, h6⟩
  have ht : ∀ t ∈ A.trips P.job, t < n := by
    intro t h1
    obtain ⟨x, h2⟩ := (hP.depicted.job.2 t).1 (hs'.trips.mem_iff.1 h1)
    rw [← hP.trips]
    exact (List.getElem?_eq_some_iff.1 h2).1
  have sol := (Milp.solves_iff _).1 hs'.solves
  have hmet : P.env.metric = euclid := hP.depicted.metric.trans hP.metric
  have tn : (A.trips P.job).Nodup := hs'.trips.nodup_iff.2 hP.depicted.job.1
  have hne : A.vehicles P.fleet ≠ [] := by
    intro h1
    have := hs'.vehicles.length_eq
    rw [h1, Problem.fleet, List.length_range, hP.vehicles] at this
    simp at this
    omega
  refine ⟨⟨hne, ?_, fun v h1 => (hv v h1).1, fun v h1 _ => by rw [(hv v h1).2.1]; exact (hv v h1).1, ?_, fun p q => by rw [hmet]; exact he p q, ?_⟩,
    fun v h1 => by rw [(hv v h1).2.1]; exact (hv v h1).1, fun p => by rw [hmet]; exact hz p, ?_, ?_⟩
  · unfold DistinctPlaces
    rw [List.nodup_cons, List.nodup_append]
    refine ⟨fun h1 => ?_, ?_, ?_, ?_⟩
    · rcases List.mem_append.1 h1 with h1 | h1 <;> obtain ⟨t, h2, h3⟩ := List.mem_map.1 h1 <;>
        obtain ⟨row, row', x, y, d, q, e, l, x', y', d', q', e', l', g1, g2, g3, g4, g5, -, g6, -⟩ := hP.ends (ht t h2)
      · exact hA.depot t (by have := ht t h2; omega) _ _ _ _ _ _ _ g1 g2 (g5.symm.trans h3)
      · exact hA.depot (t + n) (by have := ht t h2; omega) _ _ _ _ _ _ _ g3 g4 (g6.symm.trans h3)
    · refine tn.map_on fun t h1 t' h2 h3 => ?_
      by_contra hne
      obtain ⟨row, row', x, y, d, q, e, l, x', y', d', q', e', l', g1, g2, g3, g4, g5, -, g6, -⟩ := hP.ends (ht t h1)
      obtain ⟨row2, row2', x2, y2, d2, q2, e2, l2, x2', y2', d2', q2', e2', l2', k1, k2, k3, k4, k5, -, k6, -⟩ := hP.ends (ht t' h2)
      have a1 := ht t h1
      have a2 := ht t' h2
      exact hA.places t (by omega) t' (by omega) hne _ _ _ _ _ _ _ _ _ _ _ _ _ _ g1 g2 k1 k2 (g5.symm.trans (h3.trans k5))
    · refine tn.map_on fun t h1 t' h2 h3 => ?_
      by_contra hne
      obtain ⟨row, row', x, y, d, q, e, l, x', y', d', q', e', l', g1, g2, g3, g4, g5, -, g6, -⟩ := hP.ends (ht t h1)
      obtain ⟨row2, row2', x2, y2, d2, q2, e2, l2, x2', y2', d2', q2', e2', l2', k1, k2, k3, k4, k5, -, k6, -⟩ := hP.ends (ht t' h2)
      have a1 := ht t h1
      have a2 := ht t' h2
      exact hA.places (t + n) (by omega) (t' + n) (by omega) (by omega) _ _ _ _ _ _ _ _ _ _ _ _ _ _ g3 g4 k3 k4 (g6.symm.trans (h3.trans k6))
    · intro p hp p' hp' h3
      obtain ⟨t, h1, rfl⟩ := List.mem_map.1 hp
      obtain ⟨t', h2, rfl⟩ := List.mem_map.1 hp'
      obtain ⟨row, row', x, y, d, q, e, l, x', y', d', q', e', l', g1, g2, g3, g4, g5, -, g6, -⟩ := hP.ends (ht t h1)
      obtain ⟨row2, row2', x2, y2, d2, q2, e2, l2, x2', y2', d2', q2', e2', l2', k1, k2, k3, k4, k5, -, k6, -⟩ := hP.ends (ht t' h2)
      have a1 := ht t h1
      have a2 := ht t' h2
      exact hA.places t (by omega) (t' + n) (by omega) (by omega) _ _ _ _ _ _ _ _ _ _ _ _ _ _ g1 g2 k3 k4 (g5.symm.trans (h3.trans k6))
  · intro t h1
    obtain ⟨row, row', x, y, d, q, e, l, x', y', d', q', e', l', g1, g2, g3, g4, g5, g7, g6, g8, g9⟩ := hP.ends (ht t h1)
    exact ⟨_, g9⟩
  · intro t h1
    obtain ⟨row, row', x, y, d, q, e, l, x', y', d', q', e', l', g1, g2, g3, g4, g5, g7, g6, g8, g9⟩ := hP.ends (ht t h1)
    rw [g7]
    exact hA.boarding t (ht t h1) _ _ _ _ _ _ _ g1 g2
  · intro t h1
    obtain ⟨row, row', x, y, d, q, e, l, x', y', d', q', e', l', g1, g2, g3, g4, g5, g7, g6, g8, g9⟩ := hP.ends (ht t h1)
    rw [g7, g8]
    have a1 := ht t h1
    exact ⟨hs.duration (t + n) (by omega) _ _ _ _ _ _ _ g3 g4, hA.leaving t (ht t h1) _ _ _ _ _ _ _ _ _ _ _ _ _ _ g1 g2 g3 g4⟩
  · intro k hk
    obtain ⟨-, h1, h2, h3⟩ := hv _ (List.getElem_mem hk)
    rw [h1, h2, h3]
    exact ⟨sol.u_nonneg k (by simpa [milpOf, Milp.m] using hk) 0 (by rw [Milp.len_eq _ (milpOf_vehicles hne)]; omega), rfl⟩

end File

/-! ## C103 -/

section Program

variable {U : Setup} {A : MilpChoices} {source text : Text} {w : Site} {rows : Rows} {m n : Nat} {T Q L dx dy : ℚ} {str : ℚ → Text} {uuid : Text} {seconds : ℚ}

theorem tuned_milp (P : Problem) :
    tuned (milpAlgorithm A) [("solver", .arg .none)] [("fleet", .fleet P.vehicles), ("job", .job P.metric P.objective P.trips)] = pure
      { optimize := do
          let routes ← onData (onObjects (milpRun A P))
          pure (.result P routes) } := rfl

/-- **C103.** examples/cordeau/example_milp_three_index.py, on any file with Cordeau-Laporte data that make sense, in which no place occurs
twice, boarding takes time and leaving no longer than boarding, when the solver answers with a solution of the linear model, no loop at the
depot: the program returns a good plan that serves every request, each route of which meets all constraints; it prints a report of it
that says so, and shows its plot. No file is touched. Missing from the full claim: other data (`C103_shared_place_crashes`), and loops at the depot. -/
theorem C103_milp_program_partial (hcol : U.columnar = columnarOutput str uuid seconds) (ht : w.file source = some text) (hr : FileText text rows)
    (hd : CordeauData rows m n T Q L dx dy) (hs : SensibleRows rows n) (hap : ApartRows rows n dx dy) (he : ∀ a b, 0 ≤ U.euclid a b)
    (hz : ∀ a, U.euclid a a = 0) (hm : 0 < m) (hn : 0 < n)
    (hA : ∀ P, LoadedFrom U.euclid text P → A.Solves P) {storers : List StorerName} (hst : storers.Perm exampleStorers) :
    ∃ P l w', (milpProgram U A source storers).solve w = (.ok (.result P l), w') ∧ CordeauProblem U.euclid rows m n T Q L dx dy P ∧
      PrintedAndShown str w w' P l ∧ RequestsServed P.env rows n Q L w'.data.2 l ∧ (l.flatMap (tripsOf w'.data.2.core)).Perm (List.range n) ∧
      (∀ r ∈ l, FeasibleItinerary P.env (planOf P.env w'.data.2.core r).1 (planOf P.env w'.data.2.core r).2) ∧
      ∀ r ∈ l, SaysFeasible P.env w'.data.2 r := by
  obtain ⟨trips, vehicles, s, s', e1, e2, hP⟩ := cordeau_problem hd U.euclid hr
  have hE := hP.envOK hs he
  have hS := hA ⟨U.euclid, .dialARide, trips, vehicles⟩ ⟨s, s', e1, e2, rfl, rfl⟩
  have hrun := stored_with hcol ht e1 e2 hP hs he hm hn (exampleStorers_paths hst) (tuned_milp (A := A) ⟨U.euclid, .dialARide, trips, vehicles⟩)
  obtain ⟨rs, h1, r1, g1, ne, feas, served, nv⟩ := (hP.modelled hs hap he hz hm hS).plan hS.vehicles hS.trips hS.solves hS.noLoop w.data.2
  obtain ⟨h2, r2, gr⟩ := logResult_sound hE (k := .dialARide) ne g1.planning.sound
  have run : milpRun A ⟨U.euclid, .dialARide, trips, vehicles⟩ w.data.2 = (.ok rs, h2) := by
    unfold milpRun logged
    rw [Py.bind_ok r1, Py.bind_ok r2]
    rfl
  have sound2 : ∀ r ∈ rs, Sound (Problem.env ⟨U.euclid, .dialARide, trips, vehicles⟩) h2 r := fun r hr => (g1.planning.sound r hr).grows gr
  obtain ⟨w', e3, h3, h4, h5⟩ := hrun.1 rs h2 run (g1.onlyMemos gr.core sound2)
  have core : w'.data.2.core = h1.core := h5.core.trans gr.core
  refine ⟨_, rs, w', e3, hP, h3.printedAndShown hst, h4, ?_, ?_, fun r hr => ?_⟩
  · rw [core, ← hP.trips]
    exact served
  · rw [core]
    exact feas
  · rw [h5.verdicts r hr, saysFeasible_iff hE (sound2 r hr), gr.effR r, ← saysFeasible_iff hE (g1.planning.sound r hr)]
    obtain ⟨b, h', e, hb, _⟩ := C18_feasible_iff_constraints hE h1 r (g1.planning.sound r hr).1 (g1.planning.sound r hr).2 (nv r hr)
    unfold SaysFeasible
    rw [e, hb.2 (feas r hr)]

/-- **C103, no solution.** If what the solver leaves in the variables is out of their bounds, the program raises
an exception and nothing is printed, shown or written. -/
theorem C103_invalid_answer (hcol : U.columnar = columnarOutput str uuid seconds) (ht : w.file source = some text) (hr : FileText text rows)
    (hd : CordeauData rows m n T Q L dx dy) (hs : SensibleRows rows n) (he : ∀ a b, 0 ≤ U.euclid a b) (hm : 0 < m) (hn : 0 < n)
    (hA : ∀ P, LoadedFrom U.euclid text P → (milpOf P.env (A.vehicles P.fleet) (A.trips P.job)).validates (A.assignment P) = false) {storers : List StorerName} (hst : .file none ∉ storers) :
    ∃ w', (milpProgram U A source storers).solve w = (.error .assertion, w') ∧ w'.outside = w.outside := by
  obtain ⟨trips, vehicles, s, s', e1, e2, hP⟩ := cordeau_problem hd U.euclid hr
  have hrun := stored_with hcol ht e1 e2 hP hs he hm hn hst (tuned_milp (A := A) ⟨U.euclid, .dialARide, trips, vehicles⟩)
  refine hrun.2 .assertion w.data.2 ?_
  unfold milpRun logged milpOptimize
  rw [hA ⟨U.euclid, .dialARide, trips, vehicles⟩ ⟨s, s', e1, e2, rfl, rfl⟩]
  rfl

/-- The full claim: whatever solution the solver answers with, the program returns a plan that serves every request. -/
def MilpProgramServes : Prop :=
  ∀ (rows : Rows) (m n : Nat) (T Q L dx dy : ℚ) (U : Setup) (A : MilpChoices) (source text : Text) (w : Site) (str : ℚ → Text) (uuid : Text) (seconds : ℚ),
    CordeauData rows m n T Q L dx dy → SensibleRows rows n → (∀ a b, 0 ≤ U.euclid a b) → (∀ a, U.euclid a a = 0) → 0 < m → 0 < n →
    U.columnar = columnarOutput str uuid seconds → w.file source = some text → FileText text rows →
    (∀ P, LoadedFrom U.euclid text P → (A.vehicles P.fleet).Perm P.fleet ∧ (A.trips P.job).Perm P.job ∧
      (milpOf P.env (A.vehicles P.fleet) (A.trips P.job)).solves (A.assignment P) = true) →
    ∃ P l w', (milpProgram U A source exampleStorers).solve w = (.ok (.result P l), w') ∧ (l.flatMap (tripsOf w'.data.2.core)).Perm (List.range n)

end Program

/-! ## Cases -/

/-- What is loaded from a text. -/
def loadedProblem (euclid : Pos → Pos → ℚ) (text : Text) : Problem where
  metric := euclid
  objective := .dialARide
  trips := (loaderJob (cordeauFormatter ℚ) (LoaderState.ofText text)).1.toOption.getD []
  vehicles := (loaderFleet (cordeauFormatter ℚ) (loaderJob (cordeauFormatter ℚ) (LoaderState.ofText text)).2).1.toOption.getD []

theorem LoadedFrom.eq {euclid : Pos → Pos → ℚ} {text : Text} {P : Problem} (h : LoadedFrom euclid text P) : P = loadedProblem euclid text := by
  obtain ⟨s, s', h1, h2, h3, h4⟩ := h
  obtain ⟨metric, objective, trips, vehicles⟩ := P
  simp only at h1 h2 h3 h4
  simp only [loadedProblem, h1, h2, h3, h4]
  rfl

/-- Choices with a fixed answer. -/
def fixedChoices (a : Assignment) : MilpChoices := ⟨id, id, fun _ => a⟩

theorem fixedChoices_solve {a : Assignment} {P : Problem} (h : (milpOf P.env P.fleet P.job).solves a = true) (h0 : ∀ k, a.x k 0 0 ≠ 1) :
    (fixedChoices a).Solves P :=
  ⟨.refl _, .refl _, h, fun k _ hu => h0 k hu.2.2⟩

/-- A solution for the demo problem: the first vehicle serves both requests, the second stays at the depot. -/
def demoAnswer : Assignment := Milp.ofTables [(0, 0, 1), (0, 1, 2), (0, 2, 3), (0, 3, 4), (0, 4, 5), (1, 0, 5)]
  [[0, 20, 34, 48, 62, 92], [0, 20, 34, 48, 62, 92]] [[0, 1, 3, 2, 0, 0], [0, 1, 3, 2, 0, 0]]

theorem demoAnswer_solves : (fixedChoices demoAnswer).Solves (loadedProblem manhattan demoCordeauText) :=
  fixedChoices_solve (by decide +kernel) fun k => by simp [demoAnswer, Milp.ofTables]

theorem demoCordeau_apart : ApartRows demoCordeau 2 1 2 where
  depot := by
    rintro k hk row x y d q e l h ⟨_, _, rfl⟩
    interval_cases k <;> simp [demoCordeau] at h <;> obtain ⟨_, rfl, rfl, _⟩ := h <;> decide
  places := by
    rintro k hk k' hk' hne row x y d q e l row' x' y' d' q' e' l' h ⟨_, _, rfl⟩ h' ⟨_, _, rfl⟩
    interval_cases k <;> interval_cases k' <;> simp [demoCordeau] at h h' hne <;> obtain ⟨_, rfl, rfl, _⟩ := h <;> obtain ⟨_, rfl, rfl, _⟩ := h' <;> decide
  boarding := by
    rintro k hk row x y d q e l h ⟨_, _, rfl⟩
    interval_cases k <;> simp [demoCordeau] at h <;> obtain ⟨_, _, _, rfl, _⟩ := h <;> norm_num
  leaving := by
    rintro k hk row x y d q e l row' x' y' d' q' e' l' h ⟨_, _, rfl⟩ h' ⟨_, _, rfl⟩
    interval_cases k <;> simp [demoCordeau] at h h' <;> obtain ⟨_, _, _, rfl, _⟩ := h <;> obtain ⟨_, _, _, rfl, _⟩ := h' <;> norm_num

theorem manhattan_self (p : Pos) : manhattan p p = 0 := by
  unfold manhattan
  induction p with
  | nil => rfl
  | cons x l ih => simpa using ih

/-- C103 for the demo problem. -/
example : ∃ P l w', (milpProgram (caseSetup 1) (fixedChoices demoAnswer) "a".toList [.graph none, .prompt]).solve (caseSite demoCordeauText) = (.ok (.result P l), w') ∧
    PrintedAndShown (fun _ => []) (caseSite demoCordeauText) w' P l ∧ (l.flatMap (tripsOf w'.data.2.core)).Perm [0, 1] := by
  obtain ⟨P, l, w', e, _, h1, _, h2, _⟩ := C103_milp_program_partial (U := caseSetup 1) (A := fixedChoices demoAnswer) (source := "a".toList)
    (w := caseSite demoCordeauText) (uuid := []) (seconds := 0) (str := fun _ => []) rfl rfl demoCordeauText_rows demoCordeau_shape
    demoCordeau_sensible demoCordeau_apart manhattan_nonneg manhattan_self (by omega) (by omega) (fun P hP => hP.eq ▸ demoAnswer_solves) (List.Perm.swap _ _ _)
  exact ⟨P, l, w', e, h1, h2⟩

/-- An answer out of bounds. -/
example : ∃ w', (milpProgram (caseSetup 1) (fixedChoices ⟨fun _ _ _ => 0, fun _ _ => -1, fun _ _ => 0⟩) "a".toList exampleStorers).solve (caseSite demoCordeauText) =
    (.error .assertion, w') ∧ w'.outside = (caseSite demoCordeauText).outside :=
  C103_invalid_answer (U := caseSetup 1) (uuid := []) (seconds := 0) (str := fun _ => []) rfl rfl demoCordeauText_rows demoCordeau_shape
    demoCordeau_sensible manhattan_nonneg (by omega) (by omega) (fun P hP => by rw [hP.eq]; decide +kernel) (exampleStorers_paths (.refl _))

/-- Two requests to the same place. -/
def meetingRows : Rows :=
  [[1, 4, 480, 6, 90], [0, 0, 0, 0, 0, 0, 1440], [1, 1, 0, 1, 1, 0, 50], [2, 2, 0, 1, 1, 0, 50], [3, 3, 0, 1, -1, 0, 60], [4, 3, 0, 1, -1, 0, 60]]

def meetingText : Text :=
  "1 4 480 6 90\n0 0 0 0 0 0 1440\n1 1 0 1 1 0 50\n2 2 0 1 1 0 50\n3 3 0 1 -1 0 60\n4 3 0 1 -1 0 60\n".toList

theorem meetingText_rows : FileText meetingText meetingRows := fileData_iff.1 (by decide +kernel)

theorem meetingRows_shape : CordeauData meetingRows 1 2 480 6 90 0 0 where
  header := ⟨4, [], rfl, by norm_num, by norm_num⟩
  depot := ⟨0, _, rfl⟩
  requests := by
    intro k hk
    interval_cases k <;> exact ⟨_, _, _, _, _, _, _, rfl, ⟨_, _, rfl⟩⟩
  loads := by
    rintro k hk row row' q q' h1 h2 ⟨_, _, _, _, _, ⟨_, _, rfl⟩⟩ ⟨_, _, _, _, _, ⟨_, _, rfl⟩⟩
    interval_cases k <;> simp [meetingRows] at h1 h2 <;> obtain ⟨_, _, _, _, h, _⟩ := h1 <;>
      obtain ⟨_, _, _, _, h', _⟩ := h2 <;> rw [← h, ← h'] <;> norm_num

theorem meetingRows_sensible : SensibleRows meetingRows 2 where
  duration := by
    rintro k hk row x y d q e l h ⟨_, _, rfl⟩
    interval_cases k <;> simp [meetingRows] at h <;> obtain ⟨_, _, _, h, _⟩ := h <;> rw [← h] <;> norm_num
  load := by
    rintro k hk row q h ⟨x, y, d, e, l, ⟨_, _, rfl⟩⟩
    interval_cases k <;> simp [meetingRows] at h <;> obtain ⟨_, _, _, _, h, _⟩ := h <;> rw [← h] <;> norm_num

/-- **C103.** With two requests to the same place the program fails although the solver answers with a solution: `IndexError`. -/
theorem C103_shared_place_crashes : (∀ P, LoadedFrom manhattan meetingText P → (fixedChoices sharedGoalSolution).Solves P) ∧
    (((milpProgram (caseSetup 1) (fixedChoices sharedGoalSolution) "a".toList exampleStorers).solve (caseSite meetingText)).1 matches .error .indexError) = true := by
  refine ⟨fun P hP => ?_, by decide +kernel⟩
  rw [hP.eq]
  exact fixedChoices_solve (by decide +kernel) fun k => by simp [sharedGoalSolution, Milp.ofTables]

/-- **C103.** The full claim is false. -/
theorem C103_claim_fails : ¬ MilpProgramServes := by
  intro H
  obtain ⟨P, l, w', e, _⟩ := H meetingRows 1 2 480 6 90 0 0 (caseSetup 1) (fixedChoices sharedGoalSolution) "a".toList meetingText (caseSite meetingText)
    (fun _ => []) [] 0 meetingRows_shape meetingRows_sensible manhattan_nonneg manhattan_self (by omega) (by omega) rfl rfl meetingText_rows
    fun P hP => ⟨(C103_shared_place_crashes.1 P hP).vehicles, (C103_shared_place_crashes.1 P hP).trips, (C103_shared_place_crashes.1 P hP).solves⟩
  have := C103_shared_place_crashes.2
  rw [e] at this
  simp at this

end Jinete
