import Verif.Proofs.Options
import Verif.Props.Whole
import Verif.Props.Loader

/-!
# Keyword arguments (C91 to C95)
-/

set_option autoImplicit false

namespace Jinete

variable {E : Env} {k : Objective} {C : Chance} {A B : InsertionArgs} {o first search : Options} {fleet job : List Nat}
  {episodes firstEpisodes threshold n : Nat}

/-! ## C91 -/

/-- **C91.** Of the keyword arguments of GRASP only these nine have an influence; in particular `seed` and
`no_improvement_threshold`, which its constructor names, and everything that is meant for the inner algorithms, have none: from any
heap, with any chance, the outcome is the same. -/
theorem C91_options_grasp_ignores {o o' : Options} (h : Options.Agree ["first_solution_kwargs", "local_search_kwargs", "episodes", "restart_mode", "initial",
    "fleet", "job", "algorithm_cls", "algorithms_cls"] o o') (n : Nat) (s : Heap) : runClass E k C n .grasp o s = runClass E k C n .grasp o' s := by
  cases n with
  | zero => rfl
  | succ n => exact congrFun (graspClass_congr (n := n) h) s

/-- **C91, local search.** Of the keyword arguments for its local search, `episodes`, `algorithm_cls` and `restart_mode` have no
influence. -/
theorem C91_search_options_grasp_ignores {p p' : Options} (h : ∀ x, x ∉ ["episodes", "algorithm_cls", "restart_mode"] → p x = p' x) (o : Options) (n : Nat)
    (s : Heap) : runClass E k C n .grasp (o.set "local_search_kwargs" (.options p)) s = runClass E k C n .grasp (o.set "local_search_kwargs" (.options p')) s := by
  have e : ∀ q : Options, searchOptions p q = searchOptions p' q := by
    intro q
    funext x
    unfold searchOptions Options.set Options.setDefault
    have e1 := h "fleet" (by simp)
    have e2 := h "job" (by simp)
    by_cases h1 : x = "episodes"
    · simp [h1]
    by_cases h2 : x = "restart_mode"
    · simp [h2]
    by_cases h3 : x = "algorithm_cls"
    · simp [h3]
    simp only [h1, h2, h3, if_false, h x (by simp [h1, h2, h3]), e1, e2]
  have fl : ∀ v, (o.set "local_search_kwargs" v) "fleet" = o "fleet" := fun v => by simp [Options.set]
  have jb : ∀ v, (o.set "local_search_kwargs" v) "job" = o "job" := fun v => by simp [Options.set]
  have e' : searchOptions p' (o.set "local_search_kwargs" (.options p)) = searchOptions p' (o.set "local_search_kwargs" (.options p')) := by
    simp only [searchOptions, fl, jb]
  have f' : ∀ q, firstOptions q (o.set "local_search_kwargs" (.options p)) = firstOptions q (o.set "local_search_kwargs" (.options p')) := fun q => by
    simp only [firstOptions, fl, jb]
  have w : (o.set "local_search_kwargs" (.options p)).without ["no_improvement_threshold", "first_solution_kwargs", "local_search_kwargs", "seed"] =
      (o.set "local_search_kwargs" (.options p')).without ["no_improvement_threshold", "first_solution_kwargs", "local_search_kwargs", "seed"] := by
    funext x
    simp only [Options.without, Options.set]
    by_cases hx : x = "local_search_kwargs"
    · simp [hx]
    · simp [hx]
  have g : ∀ v, (o.set "local_search_kwargs" v) "first_solution_kwargs" = o "first_solution_kwargs" := fun v => by simp [Options.set]
  cases n with
  | zero => rfl
  | succ n =>
    refine congrFun (?_ : graspClass E k (runClass E k C n) _ = graspClass E k (runClass E k C n) _) s
    unfold graspClass
    simp only [w, g, Options.set_same, optionsOr, pure_bind_eq, e, e', f']

/-! ## C93 -/

theorem InsertionArgs.settings_of (A : InsertionArgs) (hC : C.Fair) (hr : 0 < A.randomized) (fleet job : List Nat) (seed : Arg) (h : Heap) :
    (A.settings E C fleet job seed h).Of E fleet job where
  env := rfl
  fleet := rfl
  job := rfl
  fair := {
    order := hC.order h
    choice := hC.choice seed h
    rnd := by
      intro count fuel rnd e
      have e : A.strategy.strategy C h = .sampling count fuel rnd := e
      cases hs : A.strategy <;> rw [hs] at e <;> simp [Inserting.strategy] at e
      obtain ⟨-, -, rfl⟩ := e
      exact hC.stream _ _ }
  randomized := hr

theorem graspSettings_of (hC : C.Fair) (ha : 0 < A.randomized) (hb : 0 < B.randomized) (s : Nat) (h : Heap) :
    (graspSettings E C fleet job A B s h).Of E fleet job := by
  unfold graspSettings
  split
  · exact A.settings_of hC ha ..
  · exact B.settings_of hC hb ..

/-- **C93, insertion.** `InsertionAlgorithm(**o).optimize()` is the insertion of C82 and C90, with the settings the arguments ask for. -/
theorem C93_insertion_as_called (hA : A.In o) (hf : o "fleet" = some (.fleet fleet)) (hj : o "job" = some (.job job)) (hi : Absent (o "initial")) (n : Nat)
    (s : Heap) : runClass E k C (n + 1) .insertion o s =
      insertionOptimize E k (A.settings E C fleet job ((o "seed").getD (.int 56))) C.fuel none s := by
  refine congrFun (insertionClass_eq hA hf hj ?_) s
  rcases hi with hi | hi
  · exact .inr ⟨hi, rfl⟩
  · exact .inl hi

/-- **C93.** `GraspAlgorithm(**o).optimize()`, for arguments as meant, on any heap, for every objective, fleet, job and chance: it returns
a planning for the problem with routes as they should be, which serve nothing or meet the constraints (as in C83), and leaves earlier
routes alone; or a loop does not end within the rounds given. It raises nothing else: each argument reaches the constructor it is meant
for, and none that would not take it. -/
theorem C93_grasp_as_called (hE : EnvOK E) (hf : fleet ≠ []) (hfn : fleet.Nodup) (hjn : job.Nodup) (hC : C.Fair)
    (G : GraspArgs o first search fleet job A B episodes firstEpisodes threshold) (ha : 0 < A.randomized) (hb : 0 < B.randomized)
    (he : 0 < episodes) (hfe : 0 < firstEpisodes) {h : Heap} (nd : NoDangling h.core) (k : Objective) (n : Nat) :
    (∃ l h', runClass E k C (n + 6) .grasp o h = (.ok l, h') ∧ PlanningFor E fleet job h' l ∧ ProperRoutes E h' l ∧
      ServesLoosely E h' l ∧ ((∀ t, (E.trip t).timeout = .inf) → (∀ v, (E.vehicle v).timeout = .inf) → ServesFeasibly E h' l) ∧
      ∀ r, WellFormed h.core r → WellFormed h'.core r ∧ (h'.core.route r).vehicle = (h.core.route r).vehicle ∧ itinerary h'.core r = itinerary h.core r) ∨
    ∃ h', runClass E k C (n + 6) .grasp o h = (.error .outOfFuel, h') := by
  rw [graspClass_eq G]
  exact C83_grasp_whole hE hf hfn hjn (fun _ h => hC.draws h) (graspSettings_of hC ha hb) nd k he hfe

/-- **C93, termination.** With enough rounds it returns, under the Dial-a-Ride or the Hash Code objective: the number of rounds depends
only on the problem and the threshold. Sampling, where it is asked for, has to end. -/
theorem C93_grasp_as_called_returns (hE : EnvOK E) (hf : fleet ≠ []) (hfn : fleet.Nodup) (hjn : job.Nodup) (threshold : Nat)
    {k : Objective} (hk : k ≠ .taxiSharing) :
    ∃ m, ∀ (C : Chance) (o first search : Options) (A B : InsertionArgs) (episodes firstEpisodes n : Nat) (h : Heap), C.Fair →
      GraspArgs o first search fleet job A B episodes firstEpisodes threshold → 0 < A.randomized → 0 < B.randomized → 0 < episodes → 0 < firstEpisodes →
      (∀ h, (A.strategy.strategy C h).Ends ∧ (B.strategy.strategy C h).Ends) → NoDangling h.core → m ≤ C.fuel →
      ∃ l h', runClass E k C (n + 6) .grasp o h = (.ok l, h') := by
  obtain ⟨m, hm⟩ := C83_grasp_returns hE hf hfn hjn threshold hk
  refine ⟨m, fun C o first search A B episodes firstEpisodes n h hC G ha hb he hfe hs nd hfuel => ?_⟩
  rw [graspClass_eq G]
  refine hm _ _ _ _ _ _ _ _ h (fun _ h => hC.draws h) (graspSettings_of hC ha hb) (fun s h => ?_) nd he hfe hfuel
  unfold graspSettings
  split
  · exact (hs h).1
  · exact (hs h).2

/-! ## C92 -/

theorem iterative_first_ok {R σ : Type} {run : Nat → Option R → Py σ R} {value : R → Py σ (List ℚ)} {restart : Bool} {seeds : Nat → Nat} {n : Nat}
    (hn : 0 < n) {s s' : σ} {x : R} (h : iterative run value restart seeds n s = (.ok x, s')) : ∃ y s1, run (seeds 0) none s = (.ok y, s1) := by
  obtain ⟨n, rfl⟩ : ∃ m, n = m + 1 := ⟨n - 1, by omega⟩
  unfold iterative iterativeLoop at h
  obtain ⟨b, s1, h1, -⟩ := Py.bind_eq_ok.1 h
  obtain ⟨y, s2, h2, -⟩ := Py.bind_eq_ok.1 h1
  refine ⟨y, s2, ?_⟩
  cases restart <;> exact h2

theorem sequential_pair_ok {R σ : Type} {f g : Option R → Py σ R} {initial : Option R} {s s' : σ} {x : R} (h : sequential [f, g] initial s = (.ok x, s')) :
    ∃ y s1, f initial s = (.ok y, s1) ∧ ∃ z s2, g (some y) s1 = (.ok z, s2) := by
  unfold sequential sequentialLoop sequentialLoop at h
  obtain ⟨b, s1, h1, -⟩ := Py.bind_eq_ok.1 h
  obtain ⟨y, s2, h2, h3⟩ := Py.bind_eq_ok.1 h1
  obtain ⟨z, s3, h4, -⟩ := Py.bind_eq_ok.1 h3
  exact ⟨y, s2, h2, z, s3, h4⟩

theorem logged_run_ok {m : M (List Nat)} {s s' : Heap} {x : List Nat} (h : logged (logResult E k) m s = (.ok x, s')) : ∃ s1, m s = (.ok x, s1) :=
  let ⟨s1, h1, _⟩ := logged_ok h
  ⟨s1, h1⟩

theorem iterativeClass_first_ok {run : ClassName → Options → M (List Nat)} {c : ClassName}
    (hf : o "fleet" = some (.fleet fleet)) (hj : o "job" = some (.job job)) (hc : classOr .insertion (o "algorithm_cls") = pure c)
    (he : o "episodes" = some (.int episodes) ∨ o "episodes" = none ∧ episodes = 3) (hp : 0 < episodes)
    {s s' : Heap} {x : List Nat} (h : iterativeClass E k C run o s = (.ok x, s')) :
    ∃ y s1, run c (episodeOptions (o.without ["episodes", "algorithm_cls", "seed", "restart_mode"]) (C.randint ((o "seed").getD (.int 56)) 0) none) s = (.ok y, s1) := by
  rw [iterativeClass_eq (run' := fun seed best => run c (episodeOptions (o.without ["episodes", "algorithm_cls", "seed", "restart_mode"]) seed best)) hf hj hc he rfl
    (fun _ _ _ => rfl)] at h
  obtain ⟨s1, h⟩ := logged_run_ok h
  exact iterative_first_ok hp h

theorem sequentialClass_pair_ok {run : ClassName → Options → M (List Nat)} {c c' : ClassName} {p p' : Options} {initial : Option (List Nat)}
    (hf : o "fleet" = some (.fleet fleet)) (hj : o "job" = some (.job job)) (hi : StartsFrom o initial)
    (ha : o "algorithms_cls" = some (.stages [(c, p), (c', p')]) ∨ Absent (o "algorithms_cls") ∧ c = .localSearch ∧ c' = .insertion ∧
      p = (o.without ["initial", "algorithms_cls", "seed"]).set "strategy_cls" (.cls .reallocation) ∧ p' = o.without ["initial", "algorithms_cls", "seed"])
    (hp : p "seed" = none) {s s' : Heap} {x : List Nat} (h : sequentialClass E k C run o s = (.ok x, s')) :
    ∃ y s1, run c ((((p.setDefault "fleet" (.fleet fleet)).setDefault "job" (.job job)).setDefault "seed"
        (.int (C.randint ((o "seed").getD (.int 56)) 0))).set "initial" (.ofResult initial)) s = (.ok y, s1) ∧
      ∃ z s2, run c' ((((p'.setDefault "fleet" (.fleet fleet)).setDefault "job" (.job job)).setDefault "seed"
        (.int (C.randint ((o "seed").getD (.int 56)) 1))).set "initial" (.ofResult (some y))) s1 = (.ok z, s2) := by
  have step : ∀ q : List (ClassName × Options), q = [(c, p), (c', p')] → ∀ x s', logged (logResult E k) (sequential (stageRuns C run ((o "seed").getD (.int 56)) o 0 q) initial) s = (.ok x, s') →
      ∃ y s1, run c ((((p.setDefault "fleet" (.fleet fleet)).setDefault "job" (.job job)).setDefault "seed"
        (.int (C.randint ((o "seed").getD (.int 56)) 0))).set "initial" (.ofResult initial)) s = (.ok y, s1) ∧
      ∃ z s2, run c' ((((p'.setDefault "fleet" (.fleet fleet)).setDefault "job" (.job job)).setDefault "seed"
        (.int (C.randint ((o "seed").getD (.int 56)) 1))).set "initial" (.ofResult (some y))) s1 = (.ok z, s2) := by
    rintro q rfl x s' h
    obtain ⟨s1, h⟩ := logged_run_ok h
    simp only [stageRuns, hp, hf, hj] at h
    obtain ⟨y, s1, h1, z, s2, h2⟩ := sequential_pair_ok h
    refine ⟨y, s1, ?_, z, s2, ?_⟩
    · split at h1
      · exact nomatch h1
      · split at h1
        · exact nomatch h1
        · exact h1
    · split at h2
      · exact nomatch h2
      · split at h2
        · exact nomatch h2
        · exact h2
  unfold sequentialClass at h
  dsimp only at h
  rw [algorithmInit_ok (fleet := fleet) (job := job) (by simpa [Options.without] using hf) (by simpa [Options.without] using hj), initialOf_starts hi] at h
  simp only [pure_bind_eq] at h
  rcases ha with ha | ⟨ha | ha, rfl, rfl, rfl, rfl⟩
  · rw [ha] at h
    exact step _ rfl _ _ h
  · rw [ha] at h
    exact step _ rfl _ _ h
  · rw [ha] at h
    exact step _ rfl _ _ h

/-- An insertion that is asked to use a local search strategy does not return if there is a route to extend. -/
theorem insertionClass_search_strategy {c : ClassName} (hc : c.isSearch = true) (hs : o "strategy_cls" = some (.cls c)) (hi : Absent (o "iterator_cls"))
    (hr : o "routes" = none) {rs : List Nat} (hne : rs ≠ []) (hini : o "initial" = some (.result rs)) (s s' : Heap) (x : List Nat) :
    insertionClass E k C o s ≠ (.ok x, s') := by
  intro h
  have hit : classOr .ranking (o "iterator_cls") = pure .ranking := by
    rcases hi with e | e <;> rw [e] <;> rfl
  unfold insertionClass at h
  rw [hit, initialOf_starts (initial := some rs) (.inl hini)] at h
  obtain ⟨_, s1, -, h⟩ := Py.bind_eq_ok.1 h
  simp only [pure_bind_eq] at h
  obtain ⟨s2, h⟩ := logged_run_ok h
  have e1 : iteratorOptions o (some rs) "routes" = some (.routes rs) := by
    simp [iteratorOptions, Options.without, hr]
  have e2 : iteratorOptions o (some rs) "strategy_cls" = some (.cls c) := by
    simp [iteratorOptions, Options.without, Options.set, hr, hs]
  have e3 : ∃ e, rankingSettings E C (iteratorOptions o (some rs)) s1 = .error e := by
    have e4 : ∃ e, chosenStrategy C s1 (iteratorRest (iteratorOptions o (some rs))) (iteratorOptions o (some rs) "strategy_cls") = .error e := by
      rw [e2]
      cases c <;> simp only [ClassName.isSearch, Bool.false_eq_true] at hc
      all_goals
        unfold chosenStrategy strategyOf
        dsimp only
        split <;> exact ⟨_, rfl⟩
    obtain ⟨e, e4⟩ := e4
    unfold rankingSettings
    split
    · rw [e4]
      exact ⟨e, rfl⟩
    · exact ⟨_, rfl⟩
  obtain ⟨e, e3⟩ := e3
  have e5 : withoutRoutes (iteratorOptions o (some rs)) = false := by
    unfold withoutRoutes
    rw [e1]
    cases rs with
    | nil => exact absurd rfl hne
    | cons => rfl
  unfold rankingRun at h
  rw [e3, e1, e5] at h
  exact nomatch h

/-- **C92.** GRASP with a local search strategy in `local_search_kwargs`, as in examples/cordeau/example_two_opt.py, never returns: whatever
the problem, the objective, the chance, the numbers of rounds and the heap. The strategy is not used for the local search but passed to
the insertion that follows it, which cannot use it. -/
theorem C92_search_strategy_never_returns (hE : EnvOK E) (hf : fleet ≠ []) (hfn : fleet.Nodup) (hjn : job.Nodup) (hC : C.Fair)
    (G : GraspCall o first search fleet job A episodes firstEpisodes threshold) (ha : 0 < A.randomized) (he : 0 < episodes) (hfe : 0 < firstEpisodes)
    {c : ClassName} (hc : c.isSearch = true) (hs : search "strategy_cls" = some (.cls c)) (hit : Absent (search "iterator_cls")) (hr : search "routes" = none)
    {h : Heap} (nd : NoDangling h.core) (k : Objective) (n : Nat) (l : List Nat) (h' : Heap) : runClass E k C (n + 6) .grasp o h ≠ (.ok l, h') := by
  intro e
  have o1 := G.outer "algorithm_cls" (by simp)
  have o2 := G.outer "algorithms_cls" (by simp)
  have o3 := G.outer "initial" (by simp)
  have f1 := G.firstPlain "fleet" (by simp)
  have f2 := G.firstPlain "job" (by simp)
  have f4 := G.firstPlain "seed" (by simp)
  have f5 := G.firstPlain "algorithm_cls" (by simp)
  have f6 := G.firstPlain "restart_mode" (by simp)
  have s1 := G.searchPlain "fleet" (by simp)
  have s2 := G.searchPlain "job" (by simp)
  have s5 := G.searchPlain "algorithms_cls" (by simp)
  have gf := G.hasFleet
  have gj := G.hasJob
  -- the first episode
  have e : graspClass E k (runClass E k C (n + 5)) o h = (.ok l, h') := e
  unfold graspClass at e
  rw [algorithmInit_ok (fleet := fleet) (job := job) (by simpa [Options.without] using gf) (by simpa [Options.without] using gj),
    optionsOr_eq G.hasFirst, optionsOr_eq G.hasSearch] at e
  simp only [pure_bind_eq] at e
  rw [if_neg (by simp [Options.without, o1, o2])] at e
  obtain ⟨h1, e⟩ := logged_run_ok e
  obtain ⟨y, t1, e⟩ := iterativeClass_first_ok (run := runClass E k C (n + 4)) (c := .sequential) (fleet := fleet) (job := job) (episodes := episodes)
    (by simpa [Options.set, Options.without] using gf) (by simpa [Options.set, Options.without] using gj)
    (by simp [Options.set, classOr]) (by simpa [Options.set, Options.without] using G.hasEpisodes) he e
  -- its stages
  obtain ⟨f, t2, e1, z, t3, e2⟩ := sequentialClass_pair_ok (run := runClass E k C (n + 3)) (initial := none) (c := .iterative) (c' := .iterative)
    (p := firstOptions first o) (p' := searchOptions search o) (fleet := fleet) (job := job)
    (by simpa [Options.set, Options.without, episodeOptions] using gf) (by simpa [Options.set, Options.without, episodeOptions] using gj)
    (.inr (by simp [Options.set, Options.without, episodeOptions, o3])) (.inl (by simp [Options.set, Options.without, episodeOptions]))
    (by simp [firstOptions, Options.setDefault, f4]) e
  rw [firstClass_eq (fleet := fleet) (job := job) (episodes := firstEpisodes) (A := A) (G.firstArgs.congr
      (by simp [Options.Agree, firstOptions, Options.set, Options.setDefault]))
    (by simp [firstOptions, Options.set, Options.setDefault, gf, f1]) (by simp [firstOptions, Options.set, Options.setDefault, gj, f2])
    (.inl (by simp [Options.set])) (by simp [firstOptions, Options.set, Options.setDefault, f5]) (by simp [firstOptions, Options.set, Options.setDefault, f6])
    (by simpa [firstOptions, Options.set, Options.setDefault] using G.hasFirstEpisodes) (n + 1)] at e1
  -- the first solution is a planning
  have F : RunSetting E fleet job (fun _ => True) (fun v ds => True → Proper E v ds) .any := ⟨hE, (fun h => nomatch h), hf, hfn, fun _ _ _ _ => trivial, proper_movable _⟩
  have I : InsertSetting E fleet job (fun _ => True) (fun v ds => True → Proper E v ds) := ⟨hjn, fun _ _ _ => trivial, fun v _ _ => proper_idle v⟩
  have hg : (plannedValued E fleet job (fun _ => True) (fun v ds => True → Proper E v ds) .any k h.core []).Good h := ⟨nd, by simp [RoutesKept]⟩
  have p1 := (logged_safe (X := fun _ => True) (fun r s => logResult_safe F.env F.some r s) (iterative_safe (fun _ => True) (fun _ _ _ _ => trivial)
    (fun seed _ s hg _ _ => insertionOptimize_safe (initial := none) F I (fun h => A.settings_of hC ha fleet job (.int seed) h) (fun _ _ => trivial) hg
      (fun _ e => nomatch e)) hg trivial hfe)).ok e1
  -- the improvement
  obtain ⟨w, t4, e3⟩ := iterativeClass_first_ok (run := runClass E k C (n + 2)) (c := .sequential) (fleet := fleet) (job := job) (episodes := 3)
    (by simp [searchOptions, Options.set, Options.setDefault, gf, s1]) (by simp [searchOptions, Options.set, Options.setDefault, gj, s2])
    (by simp [searchOptions, Options.set, Options.setDefault, classOr]) (by simp [searchOptions, Options.set, Options.setDefault]) (by omega) e2
  obtain ⟨g, t5, e4, u, t6, e5⟩ := sequentialClass_pair_ok (run := runClass E k C (n + 1)) (initial := some f) (fleet := fleet) (job := job)
    (by simp [searchOptions, Options.set, Options.setDefault, Options.without, episodeOptions, gf, s1])
    (by simp [searchOptions, Options.set, Options.setDefault, Options.without, episodeOptions, gj, s2])
    (.inl (by simp [Options.set, Options.without, episodeOptions]))
    (.inr ⟨.inl (by simp [searchOptions, Options.set, Options.setDefault, Options.without, episodeOptions, s5]), rfl, rfl, rfl, rfl⟩)
    (by simp [Options.set, Options.without]) e3
  have e4 : localSearchClass E k C _ t2 = _ := e4
  rw [localSearchClass_eq (fleet := fleet) (job := job) (initial := some f) (threshold := threshold)
    (by simp [searchOptions, Options.set, Options.setDefault, Options.without, episodeOptions, gf, s1])
    (by simp [searchOptions, Options.set, Options.setDefault, Options.without, episodeOptions, gj, s2])
    (by simp [Options.set]) (by simp [Options.set, Options.setDefault])
    (by simpa [searchOptions, Options.set, Options.setDefault, Options.without, episodeOptions] using G.hasThreshold)] at e4
  have p2 := (localSearchOptimize_safe (X := fun _ => True) F hC.draws trivial p1.1.1 p1.2).ok e4
  have p3 : PlanInv E fleet job (fun _ => True) (fun v ds => True → Proper E v ds) .any t5 g := p2.2
  have hne : g ≠ [] := by
    rintro rfl
    exact hf (List.nil_perm.1 p3.vehicles)
  exact insertionClass_search_strategy hc (by simpa [searchOptions, Options.set, Options.setDefault, Options.without, episodeOptions] using hs)
    (by simpa [searchOptions, Options.set, Options.setDefault, Options.without, episodeOptions] using hit)
    (by simpa [searchOptions, Options.set, Options.setDefault, Options.without, episodeOptions] using hr) hne
    (by simp [Options.set, Arg.ofResult]) _ _ _ e5

/-! ## C94 -/

theorem scanSub_choice (S : Settings) (c : Nat → Nat → Nat) : ∀ (l cand : List Nat), scanSub { S with choice := c } l cand = scanSub S l cand
  | [], _ => rfl
  | _ :: l, cand => by
    simp only [scanSub]
    congr 1
    funext stop
    rw [scanSub_choice S c l]
    rfl

theorem scanRanking_choice (S : Settings) (c : Nat → Nat → Nat) : ∀ (l : List (Nat × List Nat)) (cand : List Nat),
    scanRanking { S with choice := c } l cand = scanRanking S l cand
  | [], _ => rfl
  | (_, sub) :: l, cand => by
    simp only [scanRanking, scanSub_choice, scanRanking_choice S c l]

theorem mapEach_ok_length {σ α β : Type} {f : α → Py σ β} : ∀ {l : List α} {s s' : σ} {ys : List β}, Py.mapEach l f s = (.ok ys, s') → ys.length = l.length
  | [], s, s', ys, h => by cases h; rfl
  | x :: l, s, s', ys, h => by
    obtain ⟨y, s1, -, h⟩ := Py.bind_eq_ok.1 h
    obtain ⟨zs, s2, h1, h⟩ := Py.bind_eq_ok.1 h
    cases h
    simp [mapEach_ok_length h1]

theorem criterionSorted_length {E : Env} {c : Criterion} {l l' : List Nat} {s s' : Heap} (h : c.sorted E l s = (.ok l', s')) : l'.length = l.length := by
  obtain ⟨ks, s1, h1, h⟩ := Py.bind_eq_ok.1 h
  cases h
  have := mapEach_ok_length h1
  simp [Direction.sorted, (sortKeyed_spec c.direction ks).perm.length_eq, this]

theorem onHeap_ok {α : Type} {m : M α} {s s' : IterState} {x : α} (h : onHeap m s = (.ok x, s')) : ∃ h', m s.heap = (.ok x, h') := by
  unfold onHeap at h
  rcases e : m s.heap with ⟨a, h'⟩
  rw [e] at h
  simp only [Prod.mk.injEq] at h
  exact ⟨h', by rw [h.1]⟩

theorem scanSub_short {S : Settings} (hr : S.randomized ≤ 1) : ∀ {l cand : List Nat} {s s' : IterState} {x : List Nat}, cand.length ≤ 1 →
    scanSub S l cand s = (.ok x, s') → x.length ≤ 1
  | [], cand, s, s', x, hc, h => by cases h; exact hc
  | r :: l, cand, s, s', x, hc, h => by
    obtain ⟨stop, s1, -, h⟩ := Py.bind_eq_ok.1 h
    cases stop with
    | true => cases h; exact hc
    | false =>
      refine scanSub_short hr (l := l) ?_ h
      unfold pushCandidate
      match cand, hc with
      | [], _ => simp
      | [a], _ => simp [hr]

theorem scanRanking_short {S : Settings} (hr : S.randomized ≤ 1) : ∀ {l : List (Nat × List Nat)} {cand : List Nat} {s s' : IterState} {x : List Nat},
    cand.length ≤ 1 → scanRanking S l cand s = (.ok x, s') → x.length ≤ 1
  | [], cand, s, s', x, hc, h => by cases h; exact hc
  | (v, sub) :: l, cand, s, s', x, hc, h => by
    unfold scanRanking at h
    split at h
    · exact scanRanking_short hr hc h
    · obtain ⟨c1, s1, h1, h⟩ := Py.bind_eq_ok.1 h
      obtain ⟨c2, s2, h2, h⟩ := Py.bind_eq_ok.1 h
      obtain ⟨h', h2⟩ := onHeap_ok h2
      exact scanRanking_short hr (by rw [criterionSorted_length h2]; exact scanSub_short hr hc h1) h

theorem bind_congr_ok {σ α β : Type} {x : Py σ α} {f g : α → Py σ β} {s : σ} (h : ∀ a s', x s = (.ok a, s') → f a s' = g a s') :
    (x >>= f) s = (x >>= g) s := by
  rw [Py.bind_run, Py.bind_run]
  rcases e : x s with ⟨er | a, s'⟩
  · rfl
  · exact h a s' e

theorem nextRanked_choice {S : Settings} (hr : S.randomized ≤ 1) {c : Nat → Nat → Nat} (hc : ∀ k, c k 1 = S.choice k 1) :
    nextRanked { S with choice := c } = nextRanked S := by
  funext s
  unfold nextRanked
  refine bind_congr_ok fun s0 s1 _ => ?_
  split
  · rfl
  · rw [scanRanking_choice]
    refine bind_congr_ok fun cand s2 h => ?_
    have hl := scanRanking_short hr (by simp) h
    cases cand with
    | nil => rfl
    | cons a l =>
      have : l = [] := by cases l <;> simp at hl ⊢
      subst this
      show randomChoice { S with choice := c } [a] s2 = randomChoice S [a] s2
      unfold randomChoice
      refine bind_congr_ok fun k s3 _ => ?_
      show Py.index [a] (c k 1) s3 = Py.index [a] (S.choice k 1) s3
      rw [hc]

theorem insertionLoop_choice (S : Settings) (c : Nat → Nat → Nat) (next : IterM Nat) (mark : Nat → IterM Unit) :
    ∀ n, insertionLoop { S with choice := c } next mark n = insertionLoop S next mark n
  | 0 => rfl
  | n + 1 => by simp only [insertionLoop, insertionLoop_choice S c next mark n]

theorem insertionPlanning_choice {S : Settings} (hr : S.randomized ≤ 1) {c : Nat → Nat → Nat} (hc : ∀ k, c k 1 = S.choice k 1) (initial : Option (List Nat))
    (fuel : Nat) : insertionPlanning { S with choice := c } initial fuel = insertionPlanning S initial fuel := by
  have e : insertionAlgorithm { S with choice := c } initial fuel = insertionAlgorithm S initial fuel := by
    unfold insertionAlgorithm
    rw [nextRanked_choice hr hc, insertionLoop_choice]
    rfl
  funext h
  unfold insertionPlanning
  rw [e]


theorem insertionOptimize_choice {S S' : Heap → Settings} (h : ∀ s, (S s).randomized ≤ 1 ∧ ∃ c, S' s = { S s with choice := c } ∧ ∀ k, c k 1 = (S s).choice k 1)
    (fuel : Nat) (initial : Option (List Nat)) : insertionOptimize E k S' fuel initial = insertionOptimize E k S fuel initial := by
  unfold insertionOptimize
  congr 1
  funext s
  obtain ⟨h1, c, h2, h3⟩ := h s
  rw [h2, insertionPlanning_choice h1 h3]

theorem Chance.Fair.one (hC : C.Fair) (a : Arg) (h : Heap) (k : Nat) : C.choice a h k 1 = 0 := by
  have := hC.choice a h k 1 Nat.one_pos
  omega

/-- **C94, insertion.** With at most one candidate (the default of `randomized_size`), the seed of an insertion has no influence; nor
does it seed the sampling of positions. -/
theorem C94_seed_of_insertion (hA : A.In o) (hr : A.randomized ≤ 1) (hf : o "fleet" = some (.fleet fleet)) (hj : o "job" = some (.job job))
    {initial : Option (List Nat)} (hi : o "initial" = some (.ofResult initial) ∨ o "initial" = none ∧ initial = none) (hC : C.Fair) (seed : Arg) (n : Nat) (s : Heap) :
    runClass E k C n .insertion (o.set "seed" seed) s = runClass E k C n .insertion o s := by
  cases n with
  | zero => rfl
  | succ n =>
    show insertionClass E k C (o.set "seed" seed) s = insertionClass E k C o s
    rw [insertionClass_eq (initial := initial) hA hf hj hi, insertionClass_eq (A := A) (fleet := fleet) (job := job) (initial := initial) (hA.congr (by simp [Options.Agree, Options.set]))
      (by simpa [Options.set] using hf) (by simpa [Options.set] using hj) (by simpa [StartsFrom, Options.set] using hi)]
    refine congrFun (insertionOptimize_choice (fun h => ⟨hr, C.choice seed h, by simp [InsertionArgs.settings], fun k => ?_⟩) _ _) s
    show C.choice _ _ _ _ = C.choice _ _ _ _
    rw [hC.one, hC.one]

theorem defaultStages_choice {D : Heap → Draws} {S S' : Heap → Settings}
    (h : ∀ s, (S s).randomized ≤ 1 ∧ ∃ c, S' s = { S s with choice := c } ∧ ∀ k, c k 1 = (S s).choice k 1) (fuel : Nat) :
    defaultStages E k D S' threshold fuel = defaultStages E k D S threshold fuel := by
  simp only [defaultStages]
  congr 2
  funext initial
  exact insertionOptimize_choice h fuel initial

/-- **C94.** If both phases of GRASP choose among at most one candidate, as they do by default, then nothing it draws for seeds or
choices has an influence: the outcome is the same for any other numbers drawn, as long as sets are iterated in the same orders and the
samples are the same. -/
theorem C94_grasp_without_chance (G : GraspArgs o first search fleet job A B episodes firstEpisodes threshold) (ha : A.randomized ≤ 1) (hb : B.randomized ≤ 1)
    (choice : Arg → Heap → Nat → Nat → Nat) (randint : Arg → Nat → Nat) (hC : C.Fair) (hC' : Chance.Fair { C with choice := choice, randint := randint })
    (n : Nat) (s : Heap) :
    runClass E k { C with choice := choice, randint := randint } (n + 6) .grasp o s = runClass E k C (n + 6) .grasp o s := by
  rw [graspClass_eq G, graspClass_eq G]
  refine congrFun ?_ s
  have first : ∀ i j : Arg, ∀ h, (A.settings E C fleet job j h).randomized ≤ 1 ∧ ∃ c, A.settings E { C with choice := choice, randint := randint } fleet job i h =
      { A.settings E C fleet job j h with choice := c } ∧ ∀ k, c k 1 = (A.settings E C fleet job j h).choice k 1 := fun i j h =>
    ⟨ha, choice i h, rfl, fun k => (hC'.one i h k).trans (hC.one j h k).symm⟩
  have search : ∀ i j : Arg, ∀ h, (B.settings E C fleet job j h).randomized ≤ 1 ∧ ∃ c, B.settings E { C with choice := choice, randint := randint } fleet job i h =
      { B.settings E C fleet job j h with choice := c } ∧ ∀ k, c k 1 = (B.settings E C fleet job j h).choice k 1 := fun i j h =>
    ⟨hb, choice i h, rfl, fun k => (hC'.one i h k).trans (hC.one j h k).symm⟩
  unfold graspOptimize grasp
  refine congrArg _ (congrArg _ (iterative_congr fun i _ _ => congrArg _ (sequential_pair ?_ fun x => ?_)))
  · refine congrArg _ (iterative_congr fun j _ _ => ?_)
    dsimp only
    rw [graspSettings_first, graspSettings_first]
    exact insertionOptimize_choice (first _ _) _ _
  · refine congrArg _ (iterative_congr fun j best _ => ?_)
    dsimp only
    rw [graspSettings_search, graspSettings_search]
    exact congrArg _ (congrArg (sequential · _) (defaultStages_choice (search _ _) _))

/-! ## C95 -/

/-- **C95.** `InsertionAlgorithm` looks at no other keyword arguments than these fourteen: a misspelt one is silently ignored. -/
theorem C95_insertion_ignores_unknown {o o' : Options} (h : Options.Agree ["iterator_cls", "initial", "fleet", "job", "strategy_cls", "criterion_cls",
    "neighborhood_max_size", "randomized_size", "seed", "routes", "only_feasible", "name", "direction", "result"] o o')
    (hi : o "iterator_cls" = some (.cls .ranking) ∨ Absent (o "iterator_cls")) (n : Nat) (s : Heap) :
    runClass E k C n .insertion o s = runClass E k C n .insertion o' s := by
  cases n with
  | zero => rfl
  | succ n =>
    have hit : classOr .ranking (o "iterator_cls") = pure .ranking := by
      rcases hi with e | e | e <;> rw [e] <;> rfl
    have hf := h "fleet" (by simp)
    have hj := h "job" (by simp)
    have hro := h "routes" (by simp)
    have io : ∀ initial x, x ∈ ["fleet", "job", "strategy_cls", "criterion_cls", "neighborhood_max_size", "randomized_size", "seed", "routes", "only_feasible",
        "name", "direction", "result"] → iteratorOptions o initial x = iteratorOptions o' initial x := by
      intro initial x hx
      have e := h x (by simp only [List.mem_cons, List.not_mem_nil, or_false] at hx ⊢; tauto)
      cases initial with
      | none => simp only [iteratorOptions, Options.without, e]
      | some rs =>
        have er : o.without ["iterator_cls", "initial"] "routes" = o'.without ["iterator_cls", "initial"] "routes" := by simp only [Options.without, hro]
        have ex : o.without ["iterator_cls", "initial"] x = o'.without ["iterator_cls", "initial"] x := by simp only [Options.without, e]
        unfold iteratorOptions
        dsimp only
        rw [er]
        split
        · exact ex
        · simp only [Options.set, ex]
    have run : ∀ initial, rankingRun E C (iteratorOptions o initial) = rankingRun E C (iteratorOptions o' initial) := by
      intro initial
      funext t
      have e1 : rankingSettings E C (iteratorOptions o initial) t = rankingSettings E C (iteratorOptions o' initial) t :=
        rankingSettings_congr (fun x hx => io initial x (by simp only [List.mem_cons, List.not_mem_nil, or_false] at hx ⊢; tauto)) t
      have e2 := io initial "routes" (by simp)
      have e3 : withoutRoutes (iteratorOptions o initial) = withoutRoutes (iteratorOptions o' initial) := by
        simp only [withoutRoutes, e2, io initial "fleet" (by simp)]
      simp only [rankingRun, e1, e2, e3]
    refine congrFun (?_ : insertionClass E k C o = insertionClass E k C o') s
    unfold insertionClass
    rw [← h "iterator_cls" (by simp), ← h "initial" (by simp), hit]
    simp only [pure_bind_eq, run, algorithmInit_congr (o := o.without ["iterator_cls", "initial"]) (o' := o'.without ["iterator_cls", "initial"])
      (by simp [Options.without, hf]) (by simp [Options.without, hj])]

/-! ## Cases -/

/-- Sets in the order of their creation, the first candidate (for seed 7 the last), the least sample, all pairs of positions. -/
def plainChance (fuel : Nat) : Chance where
  order := fun _ _ l => l
  choice := fun a _ _ n => match a with
    | .int 7 => n - 1
    | _ => 0
  stream := fun _ _ _ _ lo _ => lo
  randint := fun _ i => i
  draws := fun _ => plainDraws
  samples := 128
  fuel := fuel
  otherIterator := fun _ _ => pure []
  otherAlgorithm := fun _ _ => pure []

theorem plainChance_fair (fuel : Nat) : (plainChance fuel).Fair where
  order _ _ l := .refl l
  choice a h k n hn := by
    show (match a with | .int 7 => n - 1 | _ => 0) < n
    split <;> omega
  stream _ _ _ _ lo hi h := ⟨Nat.le_refl _, h⟩
  draws _ := plainDraws_ok

/-- The arguments of examples/cordeau/example_grasp.py for a problem with two vehicles and one trip. -/
def exampleGrasp : Options := .of [("fleet", .fleet [0, 1]), ("job", .job [0]),
  ("first_solution_kwargs", .options (Options.of [("episodes", .int 1), ("randomized_size", .int 2)])), ("episodes", .int 5)]

/-- The choices it makes: all defaults but two candidates. -/
def twoCandidates : InsertionArgs := ⟨.sampling, .earliestLastDeparture, some 24, 2, true⟩

/-- The defaults. -/
def insertionDefaults : InsertionArgs := ⟨.sampling, .earliestLastDeparture, some 24, 1, true⟩

theorem insertionDefaults_in : insertionDefaults.In .none where
  strategy := .inr ⟨.inl rfl, rfl⟩
  criterion := .inr ⟨.inl rfl, rfl⟩
  neighborhood := .inr (.inr ⟨rfl, rfl⟩)
  randomized := .inr ⟨rfl, rfl⟩
  onlyFeasible := .inr ⟨rfl, rfl⟩
  iterator := .inr (.inl rfl)
  name := rfl
  direction := rfl
  routes := rfl

theorem exampleGrasp_args : GraspArgs exampleGrasp (Options.of [("episodes", .int 1), ("randomized_size", .int 2)]) .none [0, 1] [0] twoCandidates insertionDefaults 5 1 1 where
  hasFleet := rfl
  hasJob := rfl
  hasFirst := .inl rfl
  hasSearch := .inr ⟨.inl rfl, rfl⟩
  hasEpisodes := .inl rfl
  outer := by intro x hx; simp at hx; rcases hx with rfl | rfl | rfl | rfl <;> rfl
  hasFirstEpisodes := .inl rfl
  firstArgs := {
    strategy := .inr ⟨.inl rfl, rfl⟩
    criterion := .inr ⟨.inl rfl, rfl⟩
    neighborhood := .inr (.inr ⟨rfl, rfl⟩)
    randomized := .inl rfl
    onlyFeasible := .inr ⟨rfl, rfl⟩
    iterator := .inr (.inl rfl)
    name := rfl
    direction := rfl
    routes := rfl }
  firstPlain := by intro x hx; simp at hx; rcases hx with rfl | rfl | rfl | rfl | rfl | rfl <;> rfl
  hasThreshold := .inr ⟨rfl, rfl⟩
  searchPlain := by intro x hx; rfl
  searchArgs := insertionDefaults_in

/-- C91: a seed and a threshold for GRASP change nothing. -/
example (s : Heap) : runClass swapEnv .dialARide (plainChance 9) 6 .grasp ((exampleGrasp.set "seed" (.int 7)).set "no_improvement_threshold" (.int 5)) s =
    runClass swapEnv .dialARide (plainChance 9) 6 .grasp exampleGrasp s :=
  C91_options_grasp_ignores (by simp [Options.Agree, Options.set]) 6 s

/-- C91: nor do episodes for its local search. -/
example (s : Heap) : runClass swapEnv .dialARide (plainChance 9) 6 .grasp (exampleGrasp.set "local_search_kwargs" (.options (Options.of [("episodes", .int 50)]))) s =
    runClass swapEnv .dialARide (plainChance 9) 6 .grasp (exampleGrasp.set "local_search_kwargs" (.options Options.none)) s :=
  C91_search_options_grasp_ignores (by intro x hx; simp at hx; simp [Options.of, Options.none, List.lookup, beq_eq_false_iff_ne.mpr hx.1]) _ 6 s

/-- C93: the example returns a planning or does not end. -/
example : (∃ l h', runClass swapEnv .dialARide (plainChance 9) 6 .grasp exampleGrasp .empty = (.ok l, h') ∧ PlanningFor swapEnv [0, 1] [0] h' l) ∨
    ∃ h', runClass swapEnv .dialARide (plainChance 9) 6 .grasp exampleGrasp .empty = (.error .outOfFuel, h') := by
  rcases C93_grasp_as_called swapEnv_ok (by simp) (by simp) (by simp) (plainChance_fair 9) exampleGrasp_args (by decide) (by decide) (by omega) (by omega)
    empty_noDangling .dialARide 0 with ⟨l, h', e, p, _⟩ | h
  · exact .inl ⟨l, h', e, p⟩
  · exact .inr h

/-- The arguments of examples/cordeau/example_two_opt.py for the same problem. -/
def exampleTwoOpt : Options := .of [("fleet", .fleet [0, 1]), ("job", .job [0]),
  ("first_solution_kwargs", .options (Options.of [("episodes", .int 1), ("strategy_cls", .cls .intensive)])),
  ("local_search_kwargs", .options (Options.of [("strategy_cls", .cls .twoOpt)]))]

theorem exampleTwoOpt_args : GraspCall exampleTwoOpt (.of [("episodes", .int 1), ("strategy_cls", .cls .intensive)]) (.of [("strategy_cls", .cls .twoOpt)])
    [0, 1] [0] ⟨.intensive, .earliestLastDeparture, some 24, 1, true⟩ 3 1 1 where
  hasFleet := rfl
  hasJob := rfl
  hasFirst := .inl rfl
  hasSearch := .inl rfl
  hasEpisodes := .inr ⟨rfl, rfl⟩
  outer := by intro x hx; simp at hx; rcases hx with rfl | rfl | rfl | rfl <;> rfl
  hasFirstEpisodes := .inl rfl
  firstArgs := {
    strategy := .inl rfl
    criterion := .inr ⟨.inl rfl, rfl⟩
    neighborhood := .inr (.inr ⟨rfl, rfl⟩)
    randomized := .inr ⟨rfl, rfl⟩
    onlyFeasible := .inr ⟨rfl, rfl⟩
    iterator := .inr (.inl rfl)
    name := rfl
    direction := rfl
    routes := rfl }
  firstPlain := by intro x hx; simp at hx; rcases hx with rfl | rfl | rfl | rfl | rfl | rfl <;> rfl
  hasThreshold := .inr ⟨rfl, rfl⟩
  searchPlain := by intro x hx; simp at hx; rcases hx with rfl | rfl | rfl | rfl | rfl <;> rfl

/-- C92: the example fails, whatever the objective and however long it may run. -/
example (k : Objective) (fuel : Nat) (l : List Nat) (h' : Heap) : runClass swapEnv k (plainChance fuel) 6 .grasp exampleTwoOpt .empty ≠ (.ok l, h') :=
  C92_search_strategy_never_returns swapEnv_ok (by simp) (by simp) (by simp) (plainChance_fair fuel) exampleTwoOpt_args (by decide) (by omega) (by omega)
    (c := .twoOpt) rfl rfl (.inl rfl) rfl empty_noDangling k 0 l h'

/-- The full claim: a local search strategy named for the local search of GRASP is used by it, so that a call as meant returns a
result if its loops get the rounds they need. -/
def SearchStrategyAccepted : Prop :=
  ∀ (E : Env) (k : Objective) (C : Chance) (o first search : Options) (fleet job : List Nat) (A : InsertionArgs) (episodes firstEpisodes threshold : Nat)
    (c : ClassName) (h : Heap), EnvOK E → fleet ≠ [] → fleet.Nodup → job.Nodup → C.Fair →
    GraspCall o first search fleet job A episodes firstEpisodes threshold → 0 < A.randomized → 0 < episodes → 0 < firstEpisodes → c.isSearch = true →
    search "strategy_cls" = some (.cls c) → Absent (search "iterator_cls") → search "routes" = none → NoDangling h.core →
    ∃ fuel l h', runClass E k { C with fuel := fuel } 6 .grasp o h = (.ok l, h')

/-- **C92.** The full claim is false. -/
theorem C92_claim_fails : ¬ SearchStrategyAccepted := by
  intro H
  obtain ⟨fuel, l, h', e⟩ := H swapEnv .dialARide (plainChance 9) exampleTwoOpt _ _ [0, 1] [0] _ 3 1 1 .twoOpt .empty swapEnv_ok (by simp) (by simp) (by simp)
    (plainChance_fair 9) exampleTwoOpt_args (by decide) (by omega) (by omega) rfl rfl (.inl rfl) rfl empty_noDangling
  exact C92_search_strategy_never_returns swapEnv_ok (by simp) (by simp) (by simp) (plainChance_fair fuel) exampleTwoOpt_args (by decide) (by omega) (by omega)
    (c := .twoOpt) rfl rfl (.inl rfl) rfl empty_noDangling .dialARide 0 l h' e

/-- C94: by default, what GRASP draws has no influence. -/
example (randint : Arg → Nat → Nat) (s : Heap) :
    runClass swapEnv .dialARide { plainChance 9 with randint := randint } 6 .grasp (.of [("fleet", .fleet [0, 1]), ("job", .job [0])]) s =
      runClass swapEnv .dialARide (plainChance 9) 6 .grasp (.of [("fleet", .fleet [0, 1]), ("job", .job [0])]) s :=
  C94_grasp_without_chance (first := .none) (search := .none) (fleet := [0, 1]) (job := [0]) (A := insertionDefaults) (B := insertionDefaults) (episodes := 3)
    (firstEpisodes := 3) (threshold := 1)
    { hasFleet := rfl, hasJob := rfl, hasFirst := .inr ⟨.inl rfl, rfl⟩, hasSearch := .inr ⟨.inl rfl, rfl⟩, hasEpisodes := .inr ⟨rfl, rfl⟩,
      outer := by intro x hx; simp at hx; rcases hx with rfl | rfl | rfl | rfl <;> rfl
      hasFirstEpisodes := .inr ⟨rfl, rfl⟩, firstArgs := insertionDefaults_in, firstPlain := fun _ _ => rfl, hasThreshold := .inr ⟨rfl, rfl⟩
      searchPlain := fun _ _ => rfl, searchArgs := insertionDefaults_in } (by decide) (by decide) (plainChance 9).choice randint (plainChance_fair 9)
    ⟨(plainChance_fair 9).order, (plainChance_fair 9).choice, (plainChance_fair 9).stream, (plainChance_fair 9).draws⟩ 0 s

/-- An insertion with two candidates at a time. -/
def twoAtATime : Options := .of [("fleet", .fleet [0]), ("job", .job [0, 1]), ("strategy_cls", .cls .tail), ("randomized_size", .int 2)]

/-- The trips served, route by route. -/
def tripsServedBy (r : Except Err (List Nat) × Heap) : Option (List (List Nat)) :=
  match r.1 with
  | .ok l => some (l.map (tripsOf r.2.core))
  | .error _ => none

/-- With two candidates the seed does matter: the hypothesis of C94 cannot be dropped. -/
theorem C94_seed_matters_for_two : tripsServedBy (runClass farEnv .dialARide (plainChance 9) 1 .insertion (twoAtATime.set "seed" (.int 7)) .empty) ≠
    tripsServedBy (runClass farEnv .dialARide (plainChance 9) 1 .insertion twoAtATime .empty) := by
  decide +kernel

/-- C94 for insertions: with the default of one candidate it does not. -/
example (s : Heap) : runClass farEnv .dialARide (plainChance 9) 1 .insertion (Options.set (.of [("fleet", .fleet [0]), ("job", .job [0, 1])]) "seed" (.int 7)) s =
    runClass farEnv .dialARide (plainChance 9) 1 .insertion (.of [("fleet", .fleet [0]), ("job", .job [0, 1])]) s :=
  C94_seed_of_insertion (fleet := [0]) (job := [0, 1]) (initial := none) (insertionDefaults_in.congr (by intro x hx; simp at hx; rcases hx with rfl | rfl | rfl | rfl | rfl | rfl | rfl | rfl | rfl <;> rfl)) (by decide) rfl rfl (.inr ⟨rfl, rfl⟩)
    (plainChance_fair 9) (.int 7) 1 s

/-- The arguments of examples/hashcode/example_insertion.py; `criterion` is not the name of the argument. -/
def exampleHashCode : Options := .of [("fleet", .fleet [0]), ("job", .job [0, 1]), ("criterion", .cls (.criterion .hashCode)), ("neighborhood_max_size", .none)]

/-- C95: the criterion is ignored, so the insertion uses the earliest last departure. -/
example (s : Heap) : runClass farEnv .hashCode (plainChance 9) 1 .insertion exampleHashCode s =
      runClass farEnv .hashCode (plainChance 9) 1 .insertion (.of [("fleet", .fleet [0]), ("job", .job [0, 1]), ("neighborhood_max_size", .none)]) s ∧
    runClass farEnv .hashCode (plainChance 9) 1 .insertion exampleHashCode s = insertionOptimize farEnv .hashCode
      ((⟨.sampling, .earliestLastDeparture, none, 1, true⟩ : InsertionArgs).settings farEnv (plainChance 9) [0] [0, 1] (.int 56)) 9 none s :=
  ⟨C95_insertion_ignores_unknown (by intro x hx; simp at hx; rcases hx with rfl | rfl | rfl | rfl | rfl | rfl | rfl | rfl | rfl | rfl | rfl | rfl | rfl | rfl <;> rfl) (.inr (.inl rfl)) 1 s,
    C93_insertion_as_called (o := exampleHashCode) ⟨.inr ⟨.inl rfl, rfl⟩, .inr ⟨.inl rfl, rfl⟩, .inr (.inl ⟨rfl, rfl⟩), .inr ⟨rfl, rfl⟩, .inr ⟨rfl, rfl⟩,
      .inr (.inl rfl), rfl, rfl, rfl⟩ rfl rfl (.inl rfl) 0 s⟩

end Jinete
