import Verif.Spec.Options
import Verif.Props.Search

/-!
# Lemmas on keyword arguments
-/

set_option autoImplicit false

namespace Jinete

theorem pure_bind_eq {α β : Type} (a : α) (f : α → M β) : ((pure a : M α) >>= f) = f a := rfl

/-- The two dictionaries have the same entries for the given names. -/
def Options.Agree (names : List String) (o o' : Options) : Prop := ∀ x ∈ names, o x = o' x

@[simp] theorem Options.set_same (o : Options) (x : String) (v : Arg) : o.set x v x = some v := by simp [Options.set]

theorem Options.set_other {x y : String} (o : Options) (v : Arg) (h : y ≠ x) : o.set x v y = o y := by simp [Options.set, h]

theorem Options.without_mem {x : String} {names : List String} (o : Options) (h : x ∈ names) : o.without names x = Option.none := by
  simp [Options.without, h]

theorem Options.without_not {x : String} {names : List String} (o : Options) (h : x ∉ names) : o.without names x = o x := by
  simp [Options.without, h]

theorem Options.setDefault_other {x y : String} (o : Options) (v : Arg) (h : y ≠ x) : o.setDefault x v y = o y := by
  simp [Options.setDefault, h]

theorem Options.setDefault_same (o : Options) (x : String) (v : Arg) : o.setDefault x v x = some ((o x).getD v) := by
  simp [Options.setDefault]

theorem algorithmInit_congr {o o' : Options} (hf : o "fleet" = o' "fleet") (hj : o "job" = o' "job") :
    algorithmInit o = algorithmInit o' := by
  simp only [algorithmInit, hf, hj]

variable {E : Env} {k : Objective} {C : Chance}

theorem stageRuns_congr {run : ClassName → Options → M (List Nat)} {seed : Arg} {o o' : Options} (hf : o "fleet" = o' "fleet")
    (hj : o "job" = o' "job") : ∀ (l : List (ClassName × Options)) (i : Nat), stageRuns C run seed o i l = stageRuns C run seed o' i l
  | [], _ => rfl
  | (c, kw) :: l, i => by
    simp only [stageRuns, hf, hj, stageRuns_congr hf hj l]

/-- A sequential algorithm whose stages are given looks at no other argument. -/
theorem sequentialClass_congr {run : ClassName → Options → M (List Nat)} {o o' : Options} {l : List (ClassName × Options)}
    (hl : o "algorithms_cls" = some (.stages l)) (h : Options.Agree ["initial", "algorithms_cls", "seed", "fleet", "job"] o o') :
    sequentialClass E k C run o = sequentialClass E k C run o' := by
  have hi := h "initial" (by simp)
  have hs := h "seed" (by simp)
  have hf := h "fleet" (by simp)
  have hj := h "job" (by simp)
  have hl' : o' "algorithms_cls" = some (.stages l) := (h "algorithms_cls" (by simp)).symm.trans hl
  have hfr : o.without ["initial", "algorithms_cls", "seed"] "fleet" = o'.without ["initial", "algorithms_cls", "seed"] "fleet" := by
    simp [Options.without, hf]
  have hjr : o.without ["initial", "algorithms_cls", "seed"] "job" = o'.without ["initial", "algorithms_cls", "seed"] "job" := by
    simp [Options.without, hj]
  simp only [sequentialClass, hi, hs, hl, hl', algorithmInit_congr hfr hjr, stageRuns_congr hf hj]

/-- A repeated sequential algorithm whose stages are given looks at no other argument. -/
theorem iterativeClass_congr {n : Nat} {o o' : Options} {l : List (ClassName × Options)} (hc : o "algorithm_cls" = some (.cls .sequential))
    (hl : o "algorithms_cls" = some (.stages l))
    (h : Options.Agree ["episodes", "algorithm_cls", "seed", "restart_mode", "initial", "algorithms_cls", "fleet", "job"] o o') :
    iterativeClass E k C (runClass E k C n) o = iterativeClass E k C (runClass E k C n) o' := by
  have hi := h "initial" (by simp)
  have hs := h "seed" (by simp)
  have hf := h "fleet" (by simp)
  have hj := h "job" (by simp)
  have he := h "episodes" (by simp)
  have hr := h "restart_mode" (by simp)
  have hc' : o' "algorithm_cls" = some (.cls .sequential) := (h "algorithm_cls" (by simp)).symm.trans hc
  have ha := h "algorithms_cls" (by simp)
  have hfr : o.without ["episodes", "algorithm_cls", "seed", "restart_mode"] "fleet" =
      o'.without ["episodes", "algorithm_cls", "seed", "restart_mode"] "fleet" := by
    simp [Options.without, hf]
  have hjr : o.without ["episodes", "algorithm_cls", "seed", "restart_mode"] "job" =
      o'.without ["episodes", "algorithm_cls", "seed", "restart_mode"] "job" := by
    simp [Options.without, hj]
  have key : ∀ p p' : Options, p "algorithms_cls" = some (.stages l) → Options.Agree ["initial", "algorithms_cls", "seed", "fleet", "job"] p p' →
      runClass E k C n .sequential p = runClass E k C n .sequential p' := by
    intro p p' hp ag
    cases n with
    | zero => rfl
    | succ n => exact sequentialClass_congr hp ag
  have runs : (fun (seed : Nat) (best : Option (List Nat)) => runClass E k C n .sequential
      (episodeOptions (o.without ["episodes", "algorithm_cls", "seed", "restart_mode"]) seed best)) =
    fun (seed : Nat) (best : Option (List Nat)) => runClass E k C n .sequential
      (episodeOptions (o'.without ["episodes", "algorithm_cls", "seed", "restart_mode"]) seed best) := by
    funext seed best
    cases best with
    | none => exact key _ _ (by simp [episodeOptions, Options.set, Options.without, hl]) (by
        simp [Options.Agree, episodeOptions, Options.set, Options.without, hi, ha, hf, hj])
    | some rs => exact key _ _ (by simp [episodeOptions, Options.set, Options.without, hl]) (by
        simp [Options.Agree, episodeOptions, Options.set, Options.without, ha, hf, hj])
  simp only [iterativeClass, hc, hc', he, hs, hr, algorithmInit_congr hfr hjr, classOr, pure_bind_eq, runs]

/-- What GRASP looks at. -/
def graspNames : List String :=
  ["first_solution_kwargs", "local_search_kwargs", "episodes", "restart_mode", "initial", "fleet", "job", "algorithm_cls", "algorithms_cls"]

theorem graspClass_congr {n : Nat} {o o' : Options} (h : Options.Agree graspNames o o') :
    graspClass E k (runClass E k C n) o = graspClass E k (runClass E k C n) o' := by
  have h1 := h "first_solution_kwargs" (by simp [graspNames])
  have h2 := h "local_search_kwargs" (by simp [graspNames])
  have h3 := h "episodes" (by simp [graspNames])
  have h4 := h "restart_mode" (by simp [graspNames])
  have h5 := h "initial" (by simp [graspNames])
  have hf := h "fleet" (by simp [graspNames])
  have hj := h "job" (by simp [graspNames])
  have h6 := h "algorithm_cls" (by simp [graspNames])
  have h7 := h "algorithms_cls" (by simp [graspNames])
  have w : ∀ x, x ∉ ["no_improvement_threshold", "first_solution_kwargs", "local_search_kwargs", "seed"] → o x = o' x →
      o.without ["no_improvement_threshold", "first_solution_kwargs", "local_search_kwargs", "seed"] x =
      o'.without ["no_improvement_threshold", "first_solution_kwargs", "local_search_kwargs", "seed"] x := by
    intro x hx e
    rw [Options.without_not _ hx, Options.without_not _ hx, e]
  have runs : ∀ l, runClass E k C n .iterative (((o.without ["no_improvement_threshold", "first_solution_kwargs", "local_search_kwargs", "seed"]).set
      "algorithm_cls" (.cls .sequential)).set "algorithms_cls" (.stages l)) =
      runClass E k C n .iterative (((o'.without ["no_improvement_threshold", "first_solution_kwargs", "local_search_kwargs", "seed"]).set
      "algorithm_cls" (.cls .sequential)).set "algorithms_cls" (.stages l)) := by
    intro l
    cases n with
    | zero => rfl
    | succ n =>
      exact iterativeClass_congr (l := l) (by simp [Options.set]) (by simp [Options.set]) (by
        simp [Options.Agree, Options.set, Options.without, h3, h4, h5, hf, hj])
  have f1 : ∀ p, firstOptions p o = firstOptions p o' := fun p => by simp only [firstOptions, hf, hj]
  have f2 : ∀ p, searchOptions p o = searchOptions p o' := fun p => by simp only [searchOptions, hf, hj]
  simp only [graspClass, h1, h2, f1, f2, runs, w _ (by simp) h6, w _ (by simp) h7, algorithmInit_congr (w _ (by simp) hf) (w _ (by simp) hj)]

/-! ## What the constructors build, for arguments as meant -/

variable {A B : InsertionArgs} {o first search : Options} {fleet job : List Nat} {episodes firstEpisodes threshold n : Nat}

theorem InsertionArgs.In.congr {o o' : Options} (hA : A.In o) (h : Options.Agree ["strategy_cls", "criterion_cls", "neighborhood_max_size",
    "randomized_size", "only_feasible", "iterator_cls", "name", "direction", "routes"] o o') : A.In o' := by
  have e := fun x hx => (h x hx).symm
  constructor
  · rw [e _ (by simp)]; exact hA.strategy
  · rw [e _ (by simp)]; exact hA.criterion
  · rw [e _ (by simp)]; exact hA.neighborhood
  · rw [e _ (by simp)]; exact hA.randomized
  · rw [e _ (by simp)]; exact hA.onlyFeasible
  · rw [e _ (by simp)]; exact hA.iterator
  · rw [e _ (by simp)]; exact hA.name
  · rw [e _ (by simp)]; exact hA.direction
  · rw [e _ (by simp)]; exact hA.routes

theorem strategyOf_cls (h : Heap) (s : Inserting) {rest : Options} (hr : rest "seed" = none) :
    strategyOf C h rest s.cls = .ok (s.strategy C h) := by
  cases s <;> simp [Inserting.cls, strategyOf, Inserting.strategy, hr]

theorem iteratorRest_seed (o : Options) : iteratorRest o "seed" = none := by simp [iteratorRest, Options.without]

theorem rankingSettings_eq (hA : A.In o) (hf : o "fleet" = some (.fleet fleet)) (hj : o "job" = some (.job job)) (h : Heap) :
    rankingSettings E C o h = .ok (A.settings E C fleet job ((o "seed").getD (.int 56)) h) := by
  have h1 : chosenStrategy C h (iteratorRest o) (o "strategy_cls") = .ok (A.strategy.strategy C h) := by
    rcases hA.strategy with e | ⟨e | e, e'⟩
    · rw [e]; exact strategyOf_cls h _ (iteratorRest_seed o)
    · rw [e, e']; exact strategyOf_cls h .sampling (iteratorRest_seed o)
    · rw [e, e']; exact strategyOf_cls h .sampling (iteratorRest_seed o)
  have r1 : iteratorRest o "name" = none := by simp [iteratorRest, Options.without, hA.name]
  have r2 : iteratorRest o "direction" = none := by simp [iteratorRest, Options.without, hA.direction]
  have r3 : iteratorRest o "only_feasible" = o "only_feasible" := by simp [iteratorRest, Options.without]
  have h2 : criterionOf (iteratorRest o) (o "criterion_cls") = .ok A.criterion := by
    rcases hA.criterion with e | ⟨e | e, e'⟩ <;> rw [e] <;> simp [criterionOf, *]
  have h3 : neighborhoodOf (o "neighborhood_max_size") = .ok A.neighborhood := by
    rcases hA.neighborhood with ⟨n, e, e'⟩ | ⟨e, e'⟩ | ⟨e, e'⟩ <;> rw [e, e'] <;> simp [neighborhoodOf]
  have h4 : randomizedOf (o "randomized_size") = .ok A.randomized := by
    rcases hA.randomized with e | ⟨e, e'⟩ <;> rw [e] <;> simp [randomizedOf, *]
  have h5 : ((iteratorRest o "only_feasible").getD (.bool true)).truthy = A.onlyFeasible := by
    rw [r3]
    rcases hA.onlyFeasible with e | ⟨e, e'⟩ <;> rw [e] <;> simp [Arg.truthy, *]
  unfold rankingSettings
  rw [hf, hj]
  simp only [h1, h2, h3, h4, h5, InsertionArgs.settings]

theorem rankingRun_none (hA : A.In o) (hf : o "fleet" = some (.fleet fleet)) (hj : o "job" = some (.job job)) :
    rankingRun E C o = fun h => insertionPlanning (A.settings E C fleet job ((o "seed").getD (.int 56)) h) none C.fuel h := by
  funext h
  unfold rankingRun
  rw [rankingSettings_eq hA hf hj]
  rw [hA.routes]

theorem rankingSettings_congr {o o' : Options} (h : Options.Agree ["fleet", "job", "strategy_cls", "criterion_cls", "neighborhood_max_size",
    "randomized_size", "seed", "result", "name", "direction", "only_feasible"] o o') (s : Heap) :
    rankingSettings E C o s = rankingSettings E C o' s := by
  have r : ∀ x, x ∈ ["result", "name", "direction", "only_feasible"] → iteratorRest o x = iteratorRest o' x := by
    intro x hx
    have := h x (by simp only [List.mem_cons, List.not_mem_nil, or_false] at hx ⊢; tauto)
    simp only [iteratorRest, Options.without, this]
  have r1 := r "result" (by simp)
  have r2 := r "name" (by simp)
  have r3 := r "direction" (by simp)
  have r4 := r "only_feasible" (by simp)
  have st : ∀ c, strategyOf C s (iteratorRest o) c = strategyOf C s (iteratorRest o') c := by
    intro c
    cases c <;> simp only [strategyOf, r1, iteratorRest_seed]
  have ch : ∀ a, chosenStrategy C s (iteratorRest o) a = chosenStrategy C s (iteratorRest o') a := by
    intro a
    unfold chosenStrategy
    simp only [st]
  have cr : ∀ c, criterionOf (iteratorRest o) c = criterionOf (iteratorRest o') c := by
    intro c
    unfold criterionOf
    simp only [r2, r3]
  unfold rankingSettings
  simp only [h "fleet" (by simp), h "job" (by simp), h "strategy_cls" (by simp), h "criterion_cls" (by simp), h "neighborhood_max_size" (by simp),
    h "randomized_size" (by simp), h "seed" (by simp), ch, cr, r4]

/-- The argument `initial` is this result. -/
def StartsFrom (o : Options) (initial : Option (List Nat)) : Prop :=
  o "initial" = some (.ofResult initial) ∨ o "initial" = none ∧ initial = none

theorem initialOf_starts {initial : Option (List Nat)} (hi : StartsFrom o initial) : initialOf (o "initial") = pure initial := by
  rcases hi with e | ⟨e, e'⟩
  · rw [e]; cases initial <;> rfl
  · rw [e, e']; rfl

theorem algorithmInit_ok (hf : o "fleet" = some (.fleet fleet)) (hj : o "job" = some (.job job)) : algorithmInit o = pure () := by
  simp only [algorithmInit, hf, hj]

theorem insertionClass_eq (hA : A.In o) (hf : o "fleet" = some (.fleet fleet)) (hj : o "job" = some (.job job)) {initial : Option (List Nat)}
    (hi : StartsFrom o initial) : insertionClass E k C o = insertionOptimize E k (A.settings E C fleet job ((o "seed").getD (.int 56))) C.fuel initial := by
  have hit : classOr .ranking (o "iterator_cls") = pure .ranking := by
    rcases hA.iterator with e | e | e <;> rw [e] <;> rfl
  unfold insertionClass
  rw [algorithmInit_ok (by simpa [Options.without] using hf) (by simpa [Options.without] using hj), hit, initialOf_starts hi]
  show logged (logResult E k) (rankingRun E C (iteratorOptions o initial)) = _
  unfold insertionOptimize
  congr 1
  have e : ∀ h, rankingSettings E C (iteratorOptions o initial) h = rankingSettings E C o h := fun h =>
    rankingSettings_congr (by cases initial <;> simp [Options.Agree, iteratorOptions, Options.without, Options.set, hA.routes]) h
  funext h
  unfold rankingRun
  rw [e, rankingSettings_eq hA hf hj]
  cases initial <;> simp [iteratorOptions, Options.without, hA.routes]

theorem localSearchClass_eq (hf : o "fleet" = some (.fleet fleet)) (hj : o "job" = some (.job job)) {initial : Option (List Nat)}
    (hi : o "initial" = some (.ofResult initial)) (hs : o "strategy_cls" = some (.cls .reallocation))
    (ht : o "no_improvement_threshold" = some (.int threshold) ∨ o "no_improvement_threshold" = none ∧ threshold = 1) :
    localSearchClass E k C o = localSearchOptimize E k C.draws threshold C.fuel initial := by
  have ht' : ((o "no_improvement_threshold").getD (.int 1)).nat = pure threshold := by
    rcases ht with e | ⟨e, rfl⟩ <;> rw [e] <;> rfl
  unfold localSearchClass
  rw [algorithmInit_ok (by simpa [Options.without] using hf) (by simpa [Options.without] using hj), ht', initialOf_starts (.inl hi), hs, hi]
  cases initial with
  | none => rfl
  | some rs =>
    cases rs with
    | nil =>
      show (if 0 < threshold then isSearch .reallocation >>= fun _ => Py.raise .typeError else Py.raise .typeError : M (List Nat)) =
        Py.raise .typeError
      split <;> rfl
    | cons r l => rfl

theorem stages_eq (hB : B.In o) (hf : o "fleet" = some (.fleet fleet)) (hj : o "job" = some (.job job))
    (ht : o "no_improvement_threshold" = some (.int threshold) ∨ o "no_improvement_threshold" = none ∧ threshold = 1) (n : Nat) (seed : Arg) :
    stageRuns C (runClass E k C (n + 1)) seed o 0 [(.localSearch, (o.without ["initial", "algorithms_cls", "seed"]).set "strategy_cls" (.cls .reallocation)),
      (.insertion, o.without ["initial", "algorithms_cls", "seed"])] =
    defaultStages E k C.draws (B.settings E C fleet job (.int (C.randint seed 1))) threshold C.fuel := by
  have s1 : ((o.without ["initial", "algorithms_cls", "seed"]).set "strategy_cls" (.cls .reallocation)) "seed" = none := by
    simp [Options.set, Options.without]
  simp only [stageRuns, defaultStages]
  congr 1
  · funext current
    rw [if_neg (by simp [Options.set, Options.without]), if_neg (by simp [ClassName.isAlgorithm])]
    exact localSearchClass_eq (fleet := fleet) (job := job) (by simp [Options.set, Options.setDefault, Options.without, hf])
      (by simp [Options.set, Options.setDefault, Options.without, hj]) (by simp [Options.set]) (by simp [Options.set, Options.setDefault])
      (by simpa [Options.set, Options.setDefault, Options.without] using ht)
  congr 1
  · funext current
    rw [if_neg (by simp [Options.without]), if_neg (by simp [ClassName.isAlgorithm])]
    refine (insertionClass_eq (fleet := fleet) (job := job) (initial := current) (hB.congr ?_) (by simp [Options.set, Options.setDefault, Options.without, hf])
      (by simp [Options.set, Options.setDefault, Options.without, hj]) (.inl (by simp [Options.set]))).trans ?_
    · simp [Options.Agree, Options.set, Options.setDefault, Options.without]
    · simp [Options.set, Options.setDefault, Options.without]

theorem sequentialClass_eq (hB : B.In o) (hf : o "fleet" = some (.fleet fleet)) (hj : o "job" = some (.job job)) {initial : Option (List Nat)}
    (hi : StartsFrom o initial) (ha : Absent (o "algorithms_cls"))
    (ht : o "no_improvement_threshold" = some (.int threshold) ∨ o "no_improvement_threshold" = none ∧ threshold = 1) (n : Nat) :
    runClass E k C (n + 2) .sequential o = logged (logResult E k) (sequential (defaultStages E k C.draws
      (B.settings E C fleet job (.int (C.randint ((o "seed").getD (.int 56)) 1))) threshold C.fuel) initial) := by
  show sequentialClass E k C (runClass E k C (n + 1)) o = _
  unfold sequentialClass
  dsimp only
  rw [algorithmInit_ok (by simpa [Options.without] using hf) (by simpa [Options.without] using hj), initialOf_starts hi]
  rcases ha with ha | ha
  all_goals
    rw [ha]
    simp only [pure_bind_eq, stages_eq hB hf hj ht]

theorem iterativeLoop_congr {R σ : Type} {run run' : Nat → Option R → Py σ R} {value : R → Py σ (List ℚ)} {restart : Bool} {seeds seeds' : Nat → Nat}
    (h : ∀ i best, (restart = true → best = none) → run (seeds i) best = run' (seeds' i) best) :
    ∀ (n i : Nat) (best : Option R), iterativeLoop run value restart seeds n i best = iterativeLoop run' value restart seeds' n i best
  | 0, _, _ => rfl
  | n + 1, i, best => by
    have e := h i (if restart = true then none else best) (fun h => if_pos h)
    simp only [iterativeLoop, e, iterativeLoop_congr h n]

theorem iterative_congr {R σ : Type} {run run' : Nat → Option R → Py σ R} {value : R → Py σ (List ℚ)} {restart : Bool} {seeds seeds' : Nat → Nat} {n : Nat}
    (h : ∀ i best, (restart = true → best = none) → run (seeds i) best = run' (seeds' i) best) :
    iterative run value restart seeds n = iterative run' value restart seeds' n := by
  simp only [iterative, iterativeLoop_congr h]

theorem iterativeClass_eq {run : ClassName → Options → M (List Nat)} {c : ClassName} {restart : Bool} {run' : Nat → Option (List Nat) → M (List Nat)}
    (hf : o "fleet" = some (.fleet fleet)) (hj : o "job" = some (.job job)) (hc : classOr .insertion (o "algorithm_cls") = pure c)
    (he : o "episodes" = some (.int episodes) ∨ o "episodes" = none ∧ episodes = 3)
    (hr : ((o "restart_mode").getD (.bool true)).truthy = restart)
    (h : ∀ seed best, (restart = true → best = none) →
      run c (episodeOptions (o.without ["episodes", "algorithm_cls", "seed", "restart_mode"]) seed best) = run' seed best) :
    iterativeClass E k C run o = logged (logResult E k) (iterative run' (resultValue E k) restart (C.randint ((o "seed").getD (.int 56))) episodes) := by
  have he' : ((o "episodes").getD (.int 3)).nat = pure episodes := by
    rcases he with e | ⟨e, rfl⟩ <;> rw [e] <;> rfl
  unfold iterativeClass
  dsimp only
  rw [algorithmInit_ok (by simpa [Options.without] using hf) (by simpa [Options.without] using hj), hc, he', hr]
  simp only [pure_bind_eq]
  rw [iterative_congr fun i best hb => h _ best hb]

/-- The first solutions of GRASP. -/
theorem firstClass_eq (hA : A.In o) (hf : o "fleet" = some (.fleet fleet)) (hj : o "job" = some (.job job)) (hi : StartsFrom o none)
    (hc : o "algorithm_cls" = none) (hr : o "restart_mode" = none)
    (he : o "episodes" = some (.int episodes) ∨ o "episodes" = none ∧ episodes = 3) (n : Nat) :
    runClass E k C (n + 2) .iterative o = logged (logResult E k) (iterative (fun s _ => insertionOptimize E k (A.settings E C fleet job (.int s)) C.fuel none)
      (resultValue E k) true (C.randint ((o "seed").getD (.int 56))) episodes) := by
  refine iterativeClass_eq hf hj (c := .insertion) (by rw [hc]; rfl) he (by rw [hr]; rfl) ?_
  intro seed best hb
  rw [hb rfl]
  refine (insertionClass_eq (fleet := fleet) (job := job) (initial := none) (hA.congr ?_) ?_ ?_ ?_).trans ?_
  · simp [Options.Agree, Options.set, Options.without, episodeOptions]
  · simpa [Options.set, Options.without, episodeOptions] using hf
  · simpa [Options.set, Options.without, episodeOptions] using hj
  · simpa [StartsFrom, Options.set, Options.without, episodeOptions] using hi
  · simp [Options.set, episodeOptions]

/-- The improvement of GRASP. -/
theorem searchClass_eq (hB : B.In o) (hf : o "fleet" = some (.fleet fleet)) (hj : o "job" = some (.job job)) {initial : Option (List Nat)}
    (hi : StartsFrom o initial) (ha : Absent (o "algorithms_cls"))
    (ht : o "no_improvement_threshold" = some (.int threshold) ∨ o "no_improvement_threshold" = none ∧ threshold = 1)
    (hc : o "algorithm_cls" = some (.cls .sequential)) (hr : o "restart_mode" = some (.bool false)) (he : o "episodes" = some (.int 3)) (n : Nat) :
    runClass E k C (n + 3) .iterative o = logged (logResult E k) (iterative (fun s best => logged (logResult E k) (sequential (defaultStages E k C.draws
      (B.settings E C fleet job (.int (C.randint (.int s) 1))) threshold C.fuel) (best.or initial)))
      (resultValue E k) false (C.randint ((o "seed").getD (.int 56))) 3) := by
  refine iterativeClass_eq hf hj (c := .sequential) (by rw [hc]; rfl) (.inl he) (by rw [hr]; rfl) ?_
  intro seed best _
  refine (sequentialClass_eq (fleet := fleet) (job := job) (threshold := threshold) (initial := best.or initial) (hB.congr ?_) ?_ ?_ ?_ ?_ ?_ n).trans ?_
  · cases best <;> simp [Options.Agree, Options.set, Options.without, episodeOptions]
  · cases best <;> simpa [Options.set, Options.without, episodeOptions] using hf
  · cases best <;> simpa [Options.set, Options.without, episodeOptions] using hj
  · cases best
    · simpa [StartsFrom, Options.set, Options.without, episodeOptions] using hi
    · simp [StartsFrom, Options.set, episodeOptions, Arg.ofResult]
  · cases best <;> simpa [Absent, Options.set, Options.without, episodeOptions] using ha
  · cases best <;> simpa [Options.set, Options.without, episodeOptions] using ht
  · cases best <;> simp [Options.set, episodeOptions]

theorem sequential_pair {R σ : Type} {f g f' g' : Option R → Py σ R} {initial : Option R} (hf : f initial = f' initial)
    (hg : ∀ x, g (some x) = g' (some x)) : sequential [f, g] initial = sequential [f', g'] initial := by
  simp only [sequential, sequentialLoop, hf, hg]

/-- What the insertions of GRASP work with: those of first solutions for even numbers, those after local search for odd ones. -/
def graspSettings (E : Env) (C : Chance) (fleet job : List Nat) (A B : InsertionArgs) (s : Nat) : Heap → Settings :=
  if s % 2 = 0 then A.settings E C fleet job (.int (s / 2 : Nat)) else B.settings E C fleet job (.int (C.randint (.int (s / 2 : Nat)) 1))

/-- The numbers drawn in an episode with the given seed for the first solutions, -/
def firstDraws (C : Chance) (s i : Nat) : Nat := 2 * C.randint (.int (C.randint (.int s) 0)) i

/-- and for the improvements. -/
def searchDraws (C : Chance) (s i : Nat) : Nat := 2 * C.randint (.int (C.randint (.int s) 1)) i + 1

theorem graspSettings_first (s : Nat) (i : Nat) : graspSettings E C fleet job A B (firstDraws C s i) =
    A.settings E C fleet job (.int (C.randint (.int (C.randint (.int s) 0)) i)) := by
  simp [graspSettings, firstDraws]

theorem graspSettings_search (s : Nat) (i : Nat) : graspSettings E C fleet job A B (searchDraws C s i) =
    B.settings E C fleet job (.int (C.randint (.int (C.randint (.int (C.randint (.int s) 1)) i)) 1)) := by
  have e : (2 * C.randint (.int (C.randint (.int s) 1)) i + 1) / 2 = C.randint (.int (C.randint (.int s) 1)) i := by omega
  have e2 : ¬ (2 * C.randint (.int (C.randint (.int s) 1)) i + 1) % 2 = 0 := by omega
  simp only [graspSettings, searchDraws, if_neg e2, e]

theorem optionsOr_eq {a : Option Arg} {p : Options} (h : a = some (.options p) ∨ Absent a ∧ p = .none) : optionsOr a = pure p := by
  rcases h with rfl | ⟨rfl | rfl, rfl⟩ <;> rfl

/-- One episode of GRASP. -/
theorem graspEpisode_eq (G : GraspArgs o first search fleet job A B episodes firstEpisodes threshold) (n : Nat) {p : Options} {seed : Nat}
    (hf : p "fleet" = some (.fleet fleet)) (hj : p "job" = some (.job job)) (hi : StartsFrom p none) (hs : p "seed" = some (.int seed))
    (ha : p "algorithms_cls" = some (.stages [(.iterative, firstOptions first o), (.iterative, searchOptions search o)])) :
    runClass E k C (n + 4) .sequential p = logged (logResult E k) (sequential
      [fun _ => logged (logResult E k) (iterative (fun s _ => insertionOptimize E k (graspSettings E C fleet job A B s) C.fuel none) (resultValue E k) true
        (firstDraws C seed) firstEpisodes),
      fun initial => logged (logResult E k) (iterative (fun s best => logged (logResult E k) (sequential (defaultStages E k C.draws
        (graspSettings E C fleet job A B s) threshold C.fuel) (best.or initial))) (resultValue E k) false (searchDraws C seed) 3)] none) := by
  have f1 := G.firstPlain "fleet" (by simp)
  have f2 := G.firstPlain "job" (by simp)
  have f3 := G.firstPlain "initial" (by simp)
  have f4 := G.firstPlain "seed" (by simp)
  have f5 := G.firstPlain "algorithm_cls" (by simp)
  have f6 := G.firstPlain "restart_mode" (by simp)
  have s1 := G.searchPlain "fleet" (by simp)
  have s2 := G.searchPlain "job" (by simp)
  have s3 := G.searchPlain "initial" (by simp)
  have s4 := G.searchPlain "seed" (by simp)
  have s5 := G.searchPlain "algorithms_cls" (by simp)
  have gf := G.hasFleet
  have gj := G.hasJob
  have k1 : firstOptions first o "seed" = none := by simp [firstOptions, Options.setDefault, f4]
  have k2 : searchOptions search o "seed" = none := by simp [searchOptions, Options.setDefault, Options.set, s4]
  have k3 : firstOptions first o "initial" = none := by simp [firstOptions, Options.setDefault, f3]
  have k4 : searchOptions search o "initial" = none := by simp [searchOptions, Options.setDefault, Options.set, s3]
  show sequentialClass E k C (runClass E k C (n + 3)) p = _
  unfold sequentialClass
  dsimp only
  rw [algorithmInit_ok (fleet := fleet) (job := job) (by simpa [Options.without] using hf) (by simpa [Options.without] using hj), initialOf_starts hi, ha]
  simp only [pure_bind_eq]
  congr 1
  rw [show (p "seed").getD (.int 56) = .int seed by simp [hs]]
  simp only [stageRuns, k1, k3, k4]
  refine sequential_pair ?_ fun x => ?_
  · rw [if_neg (by simp), if_neg (by simp [ClassName.isAlgorithm])]
    refine (firstClass_eq (fleet := fleet) (job := job) (episodes := firstEpisodes) (G.firstArgs.congr ?_) ?_ ?_ ?_ ?_ ?_ ?_ (n + 1)).trans ?_
    · simp [Options.Agree, firstOptions, Options.set, Options.setDefault]
    · simp [firstOptions, Options.set, Options.setDefault, gf, f1]
    · simp [firstOptions, Options.set, Options.setDefault, gj, f2]
    · exact .inl (by simp [Options.set])
    · simp [firstOptions, Options.set, Options.setDefault, f5]
    · simp [firstOptions, Options.set, Options.setDefault, f6]
    · simpa [firstOptions, Options.set, Options.setDefault] using G.hasFirstEpisodes
    · congr 1
      refine iterative_congr fun i best _ => ?_
      rw [graspSettings_first]
      simp [firstOptions, Options.set, Options.setDefault, f4]
  · rw [if_neg (by simp), if_neg (by simp [ClassName.isAlgorithm])]
    refine (searchClass_eq (fleet := fleet) (job := job) (threshold := threshold) (initial := some x) (G.searchArgs.congr ?_) ?_ ?_ ?_ ?_ ?_ ?_ ?_ ?_ n).trans ?_
    · simp [Options.Agree, searchOptions, Options.set, Options.setDefault]
    · simp [searchOptions, Options.set, Options.setDefault, gf, s1]
    · simp [searchOptions, Options.set, Options.setDefault, gj, s2]
    · exact .inl (by simp [Options.set])
    · exact .inl (by simp [searchOptions, Options.set, Options.setDefault, s5])
    · simpa [searchOptions, Options.set, Options.setDefault] using G.hasThreshold
    · simp [searchOptions, Options.set, Options.setDefault]
    · simp [searchOptions, Options.set, Options.setDefault]
    · simp [searchOptions, Options.set, Options.setDefault]
    · have e : ((((((searchOptions search o).setDefault "fleet" ((p "fleet").getD .none)).setDefault "job" ((p "job").getD .none)).setDefault "seed"
          (.int (C.randint (.int seed) (0 + 1)))).set "initial" (.ofResult (some x))) "seed").getD (.int 56) = .int (C.randint (.int seed) 1) := by
        simp [Options.set, Options.setDefault, k2]
      refine congrArg (logged (logResult E k)) (iterative_congr fun i best _ => ?_)
      rw [graspSettings_search]
      simp only [Option.isSome_none, Bool.false_eq_true, if_false, e]

/-- `GraspAlgorithm(**o).optimize()` runs the algorithm of C83. -/
theorem graspClass_eq (G : GraspArgs o first search fleet job A B episodes firstEpisodes threshold) (n : Nat) :
    runClass E k C (n + 6) .grasp o = graspOptimize E k (fun _ => C.draws) (graspSettings E C fleet job A B) threshold C.fuel (C.randint (.int 56))
      (firstDraws C) (searchDraws C) episodes firstEpisodes := by
  have o1 := G.outer "algorithm_cls" (by simp)
  have o2 := G.outer "algorithms_cls" (by simp)
  have o3 := G.outer "initial" (by simp)
  have o4 := G.outer "restart_mode" (by simp)
  have hf := G.hasFleet
  have hj := G.hasJob
  show graspClass E k (runClass E k C (n + 5)) o = _
  unfold graspClass
  dsimp only
  rw [algorithmInit_ok (fleet := fleet) (job := job) (by simpa [Options.without] using hf) (by simpa [Options.without] using hj),
    optionsOr_eq G.hasFirst, optionsOr_eq G.hasSearch]
  simp only [pure_bind_eq]
  rw [if_neg (by simp [Options.without, o1, o2])]
  unfold graspOptimize grasp
  congr 1
  refine (iterativeClass_eq (run' := fun seed _ => logged (logResult E k) (sequential
      [fun _ => logged (logResult E k) (iterative (fun s _ => insertionOptimize E k (graspSettings E C fleet job A B s) C.fuel none) (resultValue E k) true
        (firstDraws C seed) firstEpisodes),
      fun initial => logged (logResult E k) (iterative (fun s best => logged (logResult E k) (sequential (defaultStages E k C.draws
        (graspSettings E C fleet job A B s) threshold C.fuel) (best.or initial))) (resultValue E k) false (searchDraws C seed) 3)] none))
    (fleet := fleet) (job := job) (c := .sequential) (episodes := episodes) (restart := true)
    (by simpa [Options.set, Options.without] using hf) (by simpa [Options.set, Options.without] using hj)
    (by simp [Options.set, classOr]) (by simpa [Options.set, Options.without] using G.hasEpisodes)
    (by simp [Options.set, Options.without, o4, Arg.truthy]) ?_).trans ?_
  · intro seed best hb
    rw [hb rfl]
    exact graspEpisode_eq G n (by simpa [Options.set, Options.without, episodeOptions] using hf) (by simpa [Options.set, Options.without, episodeOptions] using hj)
      (.inr (by simp [Options.set, Options.without, episodeOptions, o3])) (by simp [Options.set, episodeOptions])
      (by simp [Options.set, Options.without, episodeOptions])
  · simp [Options.set, Options.without]

end Jinete
