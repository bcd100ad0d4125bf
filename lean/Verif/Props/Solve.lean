import Verif.Proofs.Solve

/-!
# C86: a Hash Code run from input file to submission
-/

set_option autoImplicit false

namespace Jinete

/-! ## Insertion alone -/

section Insertion

variable {E : Env} {fleet job : List Nat} {S : Heap → Settings} {fuel : Nat}

/-- What a run of an algorithm should yield: a planning for the problem whose routes are as they should be and serve nothing or
meet the constraints of `LooselyFeasible` and, without ride limits and maximum durations of routes, all of them. -/
structure GoodPlan (E : Env) (fleet job : List Nat) (h : Heap) (rs : List Nat) : Prop where
  planning : PlanningFor E fleet job h rs
  proper : ProperRoutes E h rs
  loosely : ServesLoosely E h rs
  feasibly : (∀ t, (E.trip t).timeout = .inf) → (∀ v, (E.vehicle v).timeout = .inf) → ServesFeasibly E h rs

/-- Insertion from nothing, as a whole. -/
theorem insertion_planned (hE : EnvOK E) (hf : fleet ≠ []) (hfn : fleet.Nodup) (hjn : job.Nodup) (hS : ∀ h, (S h).Of E fleet job) {h : Heap}
    (nd : NoDangling h.core) (k : Objective) :
    (∃ l h', insertionOptimize E k S fuel none h = (.ok l, h') ∧ GoodPlan E fleet job h' l) ∨
    ∃ h', insertionOptimize E k S fuel none h = (.error .outOfFuel, h') := by
  have F : ∀ md : Mode, (md = .exact → ∀ t, (E.trip t).timeout = .inf) → RunSetting E fleet job (fun _ => True) (fun v ds => True → Proper E v ds) md := fun md hx =>
    ⟨hE, hx, hf, hfn, fun _ _ _ _ => trivial, proper_movable _⟩
  have G : InsertSetting E fleet job (fun _ => True) (fun v ds => True → Proper E v ds) := ⟨hjn, fun _ _ _ => trivial, fun v _ _ => proper_idle v⟩
  have main := fun (md : Mode) (hx : md = .exact → ∀ t, (E.trip t).timeout = .inf) =>
    insertionOptimize_safe (k := k) (c0 := h.core) (rs0 := []) (fuel := fuel) (X := (· = .outOfFuel)) (initial := none) (F md hx) G hS
      (by rintro e (⟨_, rfl, _⟩ | ⟨rfl, _⟩) <;> rfl) (s := h) ⟨nd, by simp [RoutesKept]⟩ (fun _ e => nomatch e)
  rcases e : insertionOptimize E k S fuel none h with ⟨er | l, h'⟩
  · right
    exact ⟨h', by rw [(main .sound (fun h => nomatch h)).error e]⟩
  · left
    have p : PlanInv E fleet job _ _ .sound h' l := ((main .sound (fun h => nomatch h)).ok e).2
    refine ⟨l, h', rfl, p.forProblem, fun r hr => p.kept r hr trivial, p.loosely (fun h => nomatch h), fun hx hv => ?_⟩
    have q : PlanInv E fleet job _ _ .exact h' l := ((main .exact (fun _ => hx)).ok e).2
    exact q.feasibly hv

/-- With a strategy whose sampling ends, if it samples, and more rounds than trips, insertion returns. -/
theorem insertion_returns (hE : EnvOK E) (hf : fleet ≠ []) (hfn : fleet.Nodup) (hjn : job.Nodup) (hS : ∀ h, (S h).Of E fleet job) {h : Heap}
    (nd : NoDangling h.core) (k : Objective) (hstr : ∀ h, (S h).strategy.Ends) (hn : job.length < fuel) :
    ∃ l h', insertionOptimize E k S fuel none h = (.ok l, h') := by
  have F : RunSetting E fleet job (fun _ => True) (fun v ds => True → Proper E v ds) .any :=
    ⟨hE, (fun h => nomatch h), hf, hfn, fun _ _ _ _ => trivial, proper_movable _⟩
  have G : InsertSetting E fleet job (fun _ => True) (fun v ds => True → Proper E v ds) := ⟨hjn, fun _ _ _ => trivial, fun v _ _ => proper_idle v⟩
  have main := insertionOptimize_safe (k := k) (c0 := h.core) (rs0 := []) (fuel := fuel) (X := fun _ => False) (initial := none) F G hS (by
      rintro e (⟨s, _, h1⟩ | ⟨_, h1⟩)
      · exact h1 (hstr s)
      · omega) (s := h) ⟨nd, by simp [RoutesKept]⟩ (fun _ e => nomatch e)
  rcases e : insertionOptimize E k S fuel none h with ⟨er | l, h'⟩
  · exact (main.error e).elim
  · exact ⟨l, h', rfl⟩

end Insertion

/-! ## Loading -/

variable {rows : Rows} {f n : Nat} {b T : ℚ}

/-- The problem in Hash Code data, as it should be loaded. -/
structure HashCodeProblem (rows : Rows) (f n : Nat) (P : Problem) : Prop where
  objective : P.objective = .hashCode
  loaded : LoadedHashCode P.env rows
  trips : P.trips.length = n
  vehicles : P.vehicles.length = f
  ident : ∀ k t, P.trips[k]? = some t → t.identifier = decimal k
  ok : EnvOK P.env
  rideLimit : ∀ t, (P.env.trip t).timeout = .inf
  maxDuration : ∀ v, (P.env.vehicle v).timeout = .inf
  depicted : Depicts P P.env P.ident P.vehicleIdent P.fleet P.job

/-- Loading a Hash Code file gives its problem. -/
theorem hashcode_problem (hd : HashCodeData rows f n b T) {text : Text} (ht : FileText text rows) :
    ∃ trips vehicles s s', loaderJob (hashcodeFormatter ℚ) (LoaderState.ofText text) = (.ok trips, s) ∧
      loaderFleet (hashcodeFormatter ℚ) s = (.ok vehicles, s') ∧ HashCodeProblem rows f n ⟨manhattan, .hashCode, trips, vehicles⟩ := by
  obtain ⟨trips, sf, e1, l1, _, t1, _⟩ := C51_one_trip_per_ride hd (SurfaceState.new (D := ℚ) [])
  obtain ⟨vehicles, sf', e2, l2, _, t2, _⟩ := C51_vehicles hd sf
  obtain ⟨s, s', h1, h2, _⟩ := (C84_instance_loaded (hashcodeFormatter ℚ) text).1 rows trips vehicles sf sf' ht e1 e2
  have hk : ∀ k, let t := (Problem.env ⟨manhattan, .hashCode, trips, vehicles⟩).trip k
      t.capacity = 1 ∧ t.timeout = .inf ∧ t.origin.duration = 0 ∧ t.destination.duration = 0 := by
    intro k
    simp only [Problem.env]
    cases hk : trips[k]? with
    | none => simp
    | some t =>
      obtain ⟨_, _, h2, h3, _, _, _, _, _, _, _, _, _, _, _, _, _, _, _, h8, h9⟩ := t1 k t hk
      exact ⟨h2, h3, h8, h9⟩
  refine ⟨trips, vehicles, s, s', h1, h2, rfl, ⟨rfl, ⟨trips, _, _, e1, fun k t hk => ?_⟩, ⟨vehicles, _, _, e2, fun k v hk => ?_⟩⟩, l1, l2,
    fun k t hk => (t1 k t hk).1, ⟨manhattan_nonneg, fun t => (hk t).2.2.1.ge, fun t => (hk t).2.2.2.ge, fun t => by rw [(hk t).1]; norm_num⟩,
    fun t => (hk t).2.1, fun v => ?_, Problem.depicted _⟩
  · simp only [Problem.env, hk, Option.elim_some]
  · simp only [Problem.env, hk, Option.elim_some]
  · simp only [Problem.env]
    cases hk : vehicles[v]? with
    | none => simp
    | some v =>
      obtain ⟨_, _, _, _, _, _, h⟩ := t2 _ v hk
      exact h

/-! ## Storing -/

theorem decimal_noBlanks (k : Nat) : NoBlanks (decimal k) :=
  ⟨fun h => by have := decimal_isDigit h; revert this; decide, fun h => by have := decimal_isDigit h; revert this; decide⟩

/-- The lines of the output: the rides of each route, in order. -/
theorem hashcode_lines (hd : HashCodeData rows f n b T) {P : Problem} (hP : HashCodeProblem rows f n P) {h : Heap} {rs : List Nat}
    (hg : GoodPlan P.env P.fleet P.job h rs) (removeEmpty : Bool) :
    (readOutput (hashcodeFormat P.env P.ident removeEmpty h.core rs)).Perm
      (((rs.map (tripsOf h.core)).filter fun ks => !removeEmpty || ks ≠ []).map fun ks => (ks.length, ks.map decimal)) := by
  have hid : ∀ t, NoBlanks (P.ident t) := by
    intro t
    unfold Problem.ident
    cases hk : P.trips[t]? with
    | none => simp [NoBlanks]
    | some x =>
      rw [Option.elim_some, hP.ident t x hk]
      exact decimal_noBlanks t
  refine (C53_output_read_back P.env P.ident removeEmpty h.core rs hid).1.trans (.of_eq ?_)
  have hr : ∀ r ∈ rs, routeEntry P.env P.ident h.core r = ((tripsOf h.core r).length, (tripsOf h.core r).map decimal) := by
    intro r hr
    have ht : ∀ t ∈ tripsOf h.core r, t < n := fun t ht => by
      have := hg.planning.job t (List.mem_flatMap.2 ⟨r, hr, ht⟩)
      rwa [Problem.job, hP.trips, List.mem_range] at this
    have e : ((itinerary h.core r).flatMap Visit.picks).filter (fun t => (P.env.trip t).capacity ≠ 0) = tripsOf h.core r := by
      refine List.filter_eq_self.2 fun t h => ?_
      · rw [(loaded_rides hd hP.loaded (ht t h)).capacity]
        simp
    unfold routeEntry
    simp only [e]
    congr 1
    refine List.map_congr_left fun t h => ?_
    have hlt : t < P.trips.length := by rw [hP.trips]; exact ht t h
    have hk : P.trips[t]? = some P.trips[t] := List.getElem?_eq_getElem hlt
    rw [Problem.ident, hk, Option.elim_some, hP.ident t _ hk]
  cases removeEmpty with
  | false =>
    simp only [Bool.false_eq_true, if_false, Bool.not_false, Bool.true_or, List.filter_true, List.map_map]
    exact List.map_congr_left fun r h => by rw [hr r h]; rfl
  | true =>
    simp only [if_true, Bool.not_true, Bool.false_or, List.filter_map, List.map_map]
    refine (List.map_congr_left fun r h => ?_).trans (congrArg (List.map _) (List.filter_congr fun r _ => rfl))
    rw [hr r (List.mem_filter.1 h).1]
    rfl

theorem contestScore_perm {b : ℚ} {l l' : List (List Nat)} (h : l.Perm l') : contestScore rows b l = contestScore rows b l' :=
  (h.map _).sum_eq

theorem contestScore_filter {b : ℚ} (p : List Nat → Bool) (hp : ∀ ks, p ks = false → ks = []) (l : List (List Nat)) :
    contestScore rows b (l.filter p) = contestScore rows b l := by
  unfold contestScore
  induction l with
  | nil => rfl
  | cons ks l ih =>
    rw [List.filter_cons]
    cases h : p ks with
    | true => simp [ih]
    | false => rw [hp ks h]; simp [ih, contestEarned]

/-- The rides of the routes, as a submission should list them: routes without rides are left out if so configured. -/
def linesFor (removeEmpty : Bool) (h : Heap) (rs : List Nat) : List (List Nat) :=
  (rs.map (tripsOf h.core)).filter fun ks => !removeEmpty || ks ≠ []

/-- The output is a submission. -/
theorem hashcode_submission (hd : HashCodeData rows f n b T) {P : Problem} (hP : HashCodeProblem rows f n P) {h : Heap} {rs : List Nat}
    (hg : GoodPlan P.env P.fleet P.job h rs) (removeEmpty : Bool) :
    SubmissionFor n f (hashcodeFormat P.env P.ident removeEmpty h.core rs) ∧
    (submissionLines (hashcodeFormat P.env P.ident removeEmpty h.core rs)).Perm (linesFor removeEmpty h rs) := by
  have hl := hashcode_lines hd hP hg removeEmpty
  have hlen : rs.length = f := by
    have := hg.planning.vehicles.length_eq
    rwa [List.length_map, Problem.fleet, List.length_range, hP.vehicles] at this
  have hks : ∀ ks ∈ linesFor removeEmpty h rs, ∀ t ∈ ks, t < n := by
    intro ks hks t ht
    obtain ⟨r, hr, rfl⟩ := List.mem_map.1 (List.mem_filter.1 hks).1
    have := hg.planning.job t (List.mem_flatMap.2 ⟨r, hr, ht⟩)
    rwa [Problem.job, hP.trips, List.mem_range] at this
  refine ⟨⟨?_, ?_, ?_, ?_⟩, ?_⟩
  · rw [hl.length_eq, List.length_map]
    refine le_trans (List.length_filter_le _ _) ?_
    rw [List.length_map, hlen]
  · intro x hx
    obtain ⟨ks, _, rfl⟩ := List.mem_map.1 (hl.mem_iff.1 hx)
    simp
  · intro x hx t ht
    obtain ⟨ks, hk, rfl⟩ := List.mem_map.1 (hl.mem_iff.1 hx)
    obtain ⟨k, hk', rfl⟩ := List.mem_map.1 ht
    exact ⟨k, hks ks hk k hk', rfl⟩
  · rw [(hl.flatMap_right _).nodup_iff, List.flatMap_map]
    have e : ((linesFor removeEmpty h rs).flatMap fun ks => ks.map decimal) = ((linesFor removeEmpty h rs).flatten).map decimal := by
      rw [List.flatMap, List.map_flatten]
    show ((linesFor removeEmpty h rs).flatMap fun ks => ks.map decimal).Nodup
    rw [e]
    refine List.Nodup.map decimal_injective ?_
    refine List.Nodup.sublist (List.Sublist.flatten List.filter_sublist) ?_
    exact hg.planning.trips
  · unfold submissionLines
    refine (hl.map _).trans (.of_eq ?_)
    rw [List.map_map]
    refine (List.map_congr_left fun ks _ => ?_).trans (List.map_id _)
    simp [Function.comp_def, readNat_decimal]

/-! ## C86 -/

/-- What a Hash Code run that read its problem from data `rows` leaves behind: the result is a good plan for the problem, and
the file `target` is a submission listing its rides, one line per vehicle unless empty routes are removed; if all rides are
delivered in time, the reported value is at most the score of the submission. Nothing else is written. -/
structure Submitted (rows : Rows) (f n : Nat) (b : ℚ) (removeEmpty : Bool) (target : Text) (w w' : Site) (P : Problem) (l : List Nat) : Prop where
  problem : HashCodeProblem rows f n P
  plan : GoodPlan P.env P.fleet P.job w'.data.2 l
  feasibly : ServesFeasibly P.env w'.data.2 l
  written : ∃ o, w'.file target = some o ∧ SubmissionFor n f o ∧ (submissionLines o).Perm (linesFor removeEmpty w'.data.2 l) ∧
    (removeEmpty = false → ValidSubmission n f o) ∧
    (0 ≤ b → DeliveredInTime P.env rows w'.data.2 l → ∃ q h, resultValue P.env P.objective l w'.data.2 = (.ok [q], h) ∧
      q ≤ contestScore rows b (submissionLines o))
  others : ∀ p, p ≠ target → w'.file p = w.file p
  printed : w'.printed = w.printed

/-- Whatever the algorithm, if it yields good plans. -/
theorem hashcode_run {euclid : Pos → Pos → ℚ} {columnar : OutputFormat} {source target : Text} {removeEmpty : Bool} {optimize : Problem → M (List Nat)} {w : Site}
    {text : Text} (ht : w.file source = some text) (hr : FileText text rows) (hd : HashCodeData rows f n b T)
    (hopt : ∀ P, HashCodeProblem rows f n P → (∃ l h', optimize P w.data.2 = (.ok l, h') ∧ GoodPlan P.env P.fleet P.job h' l) ∨
      ∃ h', optimize P w.data.2 = (.error .outOfFuel, h')) :
    ∃ P, HashCodeProblem rows f n P ∧
    ((∃ l w', (fileSolver euclid columnar source target hashcodeInput (hashcodeOutput removeEmpty) optimize).solve w = (.ok (.result P l), w') ∧
      Submitted rows f n b removeEmpty target w w' P l) ∨
    ∃ h' w', optimize P w.data.2 = (.error .outOfFuel, h') ∧
      (fileSolver euclid columnar source target hashcodeInput (hashcodeOutput removeEmpty) optimize).solve w = (.error .outOfFuel, w') ∧ w'.file = w.file) := by
  obtain ⟨trips, vehicles, s, s', e1, e2, hP⟩ := hashcode_problem hd hr
  refine ⟨_, hP, ?_⟩
  have main := solve_file (euclid := euclid) (columnar := columnar) (target := target) (F := hashcodeInput) (f := hashcodeOutput removeEmpty) (optimize := optimize) ht e1 e2
  rcases hopt _ hP with ⟨l, h', e, hg⟩ | ⟨h', e⟩
  · left
    have e' : optimize ⟨hashcodeInput.metric, hashcodeInput.objective, trips, vehicles⟩ w.data.2 = (.ok l, h') := e
    rw [e'] at main
    refine ⟨l, _, main, hP, hg, hg.feasibly hP.rideLimit hP.maxDuration, ?_, ?_, rfl⟩
    · obtain ⟨h1, h2⟩ := hashcode_submission hd hP hg removeEmpty
      refine ⟨_, if_pos rfl, h1, h2, ?_, ?_⟩
      · rintro rfl
        refine ⟨h1, ?_⟩
        refine (hashcode_lines hd hP hg false).length_eq.trans ?_
        have := hg.planning.vehicles.length_eq
        rw [List.length_map, Problem.fleet, List.length_range, hP.vehicles] at this
        simpa using this
      · intro hb hin
        have hs := hg.planning.servesRides (f := f) (n := n) (by simp [Problem.fleet, ← hP.vehicles]) (by simp [Problem.job, ← hP.trips]) hg.proper hg.loosely
        obtain ⟨q, hq, hle, _⟩ := C85_contest_score_partial hd hP.loaded hs hin
        obtain ⟨h2', e, _⟩ := planningValue_reads (E := Problem.env ⟨manhattan, .hashCode, trips, vehicles⟩) .hashCode
          (fun r hr => (hg.planning.sound r hr).1) h' rfl (Sound.coh hg.planning.sound)
        refine ⟨q, h2', ?_, ?_⟩
        · rw [← hq]
          exact e
        · refine le_of_le_of_eq ?_ (contestScore_perm h2).symm
          rw [linesFor, contestScore_filter]
          · exact hle hb
          · intro ks hk
            simp at hk
            exact hk.2
    · intro p hp
      exact if_neg hp
  · right
    have e' : optimize ⟨hashcodeInput.metric, hashcodeInput.objective, trips, vehicles⟩ w.data.2 = (.error .outOfFuel, h') := e
    rw [e'] at main
    exact ⟨h', _, e, main, rfl⟩

section
variable {euclid : Pos → Pos → ℚ} {columnar : OutputFormat} {source target : Text} {removeEmpty : Bool} {w : Site} {text : Text}

/-- If there is no file to read the problem from, a solver with `FileLoader` raises, whatever the algorithm and the storer:
nothing is optimised, printed, shown or written. -/
theorem C86_missing_file {S : Solver Site Item} (hl : S.loader = fileLoader euclid)
    (hk : S.loaderKwargs = [("file_path", .path source)] ∨ ∃ F, S.loaderKwargs = [("file_path", .path source), ("formatter_cls", .input F)])
    (hd : S.dispatcherKwargs = []) (hm : w.file source = none) :
    ∃ w', S.solve w = (.error .runtime, w') ∧ w'.data.2 = w.data.2 ∧ w'.file = w.file ∧ w'.printed = w.printed ∧ w'.figure = w.figure ∧
      w'.shown = w.shown := by
  obtain ⟨F, ht⟩ : ∃ F, tuned (fileLoader euclid) S.loaderKwargs [] = newFileLoader source F := by
    rcases hk with h | ⟨F, h⟩
    · exact ⟨cordeauInput euclid, by rw [h]; rfl⟩
    · exact ⟨F, by rw [h]; rfl⟩
  unfold Solver.solve
  simp only [hd, List.isEmpty_nil, if_true, hl]
  unfold staticRun
  rw [ht]
  unfold newFileLoader
  rw [Py.bind_assoc_run, Py.modify_bind]
  rw [hm]
  simp only [Option.elim_none]
  rw [Py.pure_bind, Py.bind_assoc_run]
  have e : loaderJob F.formatter ({ content := .error .runtime } : LoaderState ℚ) = (.error .runtime, { content := .error .runtime, reads := 1 }) := by
    unfold loaderJob loaderFormatter
    rfl
  exact ⟨w.withData ({ content := .error .runtime, reads := 1 }, w.data.2), Py.bind_error (by simp only [onLoader, onData, World.withData, e]), rfl, rfl, rfl, rfl, rfl⟩

/-- A problem file that is not there: the file to write to is not created either. -/
example : ∃ w', (fileSolver manhattan (hashcodeOutput true) "b.in".toList "b.out".toList hashcodeInput (hashcodeOutput true) fun _ => pure []).solve
      ⟨({ content := .ok [] }, .empty), fun _ => none, [], [], []⟩ = (.error .runtime, w') ∧ w'.file "b.out".toList = none := by
  obtain ⟨w', e, _, h, _⟩ := C86_missing_file (euclid := manhattan) (source := "b.in".toList) (w := ⟨({ content := .ok [] }, .empty), fun _ => none, [], [], []⟩)
    (S := fileSolver manhattan (hashcodeOutput true) "b.in".toList "b.out".toList hashcodeInput (hashcodeOutput true) fun _ => pure [])
    rfl (.inr ⟨_, rfl⟩) rfl rfl
  exact ⟨w', e, by rw [h]⟩

/-- The full claim C86, for an algorithm: with the formatters for Hash Code, every run that returns has written a valid
submission. -/
def WritesValidSubmission (rows : Rows) (f n : Nat) (source target : Text) (optimize : Problem → M (List Nat)) : Prop :=
  ∀ euclid columnar w text v w', w.file source = some text → FileText text rows → NoDangling w.data.2.core →
    (fileSolver euclid columnar source target hashcodeInput (hashcodeOutput true) optimize).solve w = (.ok v, w') →
    ∃ o, w'.file target = some o ∧ ValidSubmission n f o

/-- **C86, GRASP, what holds.** From a file with Hash Code data, a solver with GRASP either writes a submission (`Submitted`) or a
loop does not end within the rounds given; then no file is written. If the sampling of the strategies ends there is a number of
rounds, depending only on the data and the threshold, for which it writes a submission. Missing: a line for each vehicle,
when routes without rides are removed. -/
theorem C86_grasp_submission_partial (hr : FileText text rows) (hd : HashCodeData rows f n b T) (hf : 0 < f)
    (threshold : Nat) : ∃ N, ∀ (D : Nat → Heap → Draws) (S : Problem → Nat → Heap → Settings) (fuel : Nat) (seeds : Nat → Nat) (draw draw' : Nat → Nat → Nat)
      (episodes firstEpisodes : Nat) (w : Site), w.file source = some text → (∀ s h, (D s h).OK) → (∀ P s h, (S P s h).Of P.env P.fleet P.job) →
      NoDangling w.data.2.core → 0 < episodes → 0 < firstEpisodes →
      (∃ P l w', (fileSolver euclid columnar source target hashcodeInput (hashcodeOutput removeEmpty) fun P =>
          graspOptimize P.env P.objective D (S P) threshold fuel seeds draw draw' episodes firstEpisodes).solve w = (.ok (.result P l), w') ∧
        Submitted rows f n b removeEmpty target w w' P l) ∨
      (∃ w', (fileSolver euclid columnar source target hashcodeInput (hashcodeOutput removeEmpty) fun P =>
          graspOptimize P.env P.objective D (S P) threshold fuel seeds draw draw' episodes firstEpisodes).solve w = (.error .outOfFuel, w') ∧ w'.file = w.file) ∧
        ((∀ P s h, (S P s h).strategy.Ends) → fuel < N) := by
  obtain ⟨trips, vehicles, s0, s0', e1, e2, hP0⟩ := hashcode_problem hd hr
  have fne : ∀ P, HashCodeProblem rows f n P → P.fleet ≠ [] := fun P hP => by
    rw [Problem.fleet, hP.vehicles]
    simp [hf.ne']
  obtain ⟨N, hN⟩ := C83_grasp_returns hP0.ok (fne _ hP0) List.nodup_range (List.nodup_range (n := trips.length)) threshold (k := .hashCode) (by decide)
  refine ⟨N, ?_⟩
  intro D S fuel seeds draw draw' episodes firstEpisodes w ht hD hS nd he hfe
  obtain ⟨P, hP, hrun⟩ := hashcode_run (euclid := euclid) (columnar := columnar) (source := source) (target := target) (removeEmpty := removeEmpty) (w := w)
    (optimize := fun P => graspOptimize P.env P.objective D (S P) threshold fuel seeds draw draw' episodes firstEpisodes) ht hr hd (by
      intro P hP
      rcases C83_grasp_whole (threshold := threshold) (fuel := fuel) (seeds := seeds) (draw := draw) (draw' := draw') hP.ok (fne P hP) List.nodup_range
        (List.nodup_range (n := P.trips.length)) hD (hS P) nd P.objective he hfe with ⟨l, h', e, h1, h2, h3, h4, _⟩ | h
      · exact .inl ⟨l, h', e, h1, h2, h3, h4⟩
      · exact .inr h)
  have hsame : (fileSolver euclid columnar source target hashcodeInput (hashcodeOutput removeEmpty) fun P =>
      graspOptimize P.env P.objective D (S P) threshold fuel seeds draw draw' episodes firstEpisodes).solve w = _ :=
    solve_file (F := hashcodeInput) ht e1 e2
  rcases hrun with ⟨l, w', e, hs⟩ | ⟨h', w', e0, e, hw⟩
  · exact .inl ⟨P, l, w', e, hs⟩
  · refine .inr ⟨⟨w', e, hw⟩, fun hstr => ?_⟩
    by_contra hc
    obtain ⟨l, h2, e3⟩ := hN D (S ⟨manhattan, .hashCode, trips, vehicles⟩) fuel seeds draw draw' episodes firstEpisodes w.data.2 hD (hS _) (hstr _) nd he hfe (by omega)
    have e3' : graspOptimize (Problem.env ⟨hashcodeInput.metric, hashcodeInput.objective, trips, vehicles⟩) hashcodeInput.objective D
      (S ⟨hashcodeInput.metric, hashcodeInput.objective, trips, vehicles⟩) threshold fuel seeds draw draw' episodes firstEpisodes w.data.2 = (.ok l, h2) := e3
    rw [e] at hsame
    simp only [e3', hashcodeOutput] at hsame
    cases hsame

/-- **C86, insertion, what holds.** With the insertion algorithm, a strategy whose sampling ends and more rounds than rides, the
solver writes a submission. Missing: as for GRASP. -/
theorem C86_insertion_submission_partial (ht : w.file source = some text) (hr : FileText text rows) (hd : HashCodeData rows f n b T) (hf : 0 < f)
    {S : Problem → Heap → Settings} (hS : ∀ P h, (S P h).Of P.env P.fleet P.job)
    (hstr : ∀ P h, (S P h).strategy.Ends) (nd : NoDangling w.data.2.core) {fuel : Nat} (hn : n < fuel) :
    ∃ P l w', (fileSolver euclid columnar source target hashcodeInput (hashcodeOutput removeEmpty) fun P =>
        insertionOptimize P.env P.objective (S P) fuel none).solve w = (.ok (.result P l), w') ∧ Submitted rows f n b removeEmpty target w w' P l := by
  have fne : ∀ P, HashCodeProblem rows f n P → P.fleet ≠ [] := fun P hP => by
    rw [Problem.fleet, hP.vehicles]
    simp [hf.ne']
  obtain ⟨P, hP, hrun⟩ := hashcode_run (euclid := euclid) (columnar := columnar) (source := source) (target := target) (removeEmpty := removeEmpty) (w := w)
    (optimize := fun P => insertionOptimize P.env P.objective (S P) fuel none) ht hr hd (fun P hP =>
      insertion_planned hP.ok (fne P hP) List.nodup_range (List.nodup_range (n := P.trips.length)) (hS P) nd P.objective)
  rcases hrun with ⟨l, w', e, hs⟩ | ⟨h', w', e0, _⟩
  · exact ⟨P, l, w', e, hs⟩
  · obtain ⟨l, h2, e2⟩ := insertion_returns (fuel := fuel) hP.ok (fne P hP) List.nodup_range (List.nodup_range (n := P.trips.length)) (hS P) nd P.objective (hstr P)
      (by rw [List.length_range, hP.trips]; exact hn)
    have e0' : insertionOptimize P.env P.objective (S P) fuel none w.data.2 = _ := e0
    have e2' : insertionOptimize P.env P.objective (S P) fuel none w.data.2 = _ := e2
    rw [e0'] at e2'
    cases e2'

/-- At most as many lines as rides, when routes without rides are removed. -/
theorem Submitted.few_lines {w w' : Site} {P : Problem} {l : List Nat} (h : Submitted rows f n b true target w w' P l) {o : Text} (ho : w'.file target = some o) :
    (readOutput o).length ≤ n := by
  obtain ⟨o', ho', h1, h2, _⟩ := h.written
  rw [ho] at ho'
  cases ho'
  have e : (submissionLines o).length = (readOutput o).length := by simp [submissionLines]
  rw [← e, h2.length_eq]
  have hl : ∀ L : List (List Nat), (∀ ks ∈ L, ks ≠ []) → L.length ≤ L.flatten.length := by
    intro L hL
    induction L with
    | nil => simp
    | cons ks L ih =>
      have h0 := List.length_pos_iff.2 (hL ks (by simp))
      have := ih fun x hx => hL x (by simp [hx])
      simp only [List.length_cons, List.flatten_cons, List.length_append]
      omega
  refine le_trans (hl _ fun ks hk => by simpa using (List.mem_filter.1 hk).2) ?_
  have hnd := h.plan.planning.trips
  have hsub : ((linesFor true w'.data.2 l).flatten).Sublist (l.flatMap (tripsOf w'.data.2.core)) := List.Sublist.flatten List.filter_sublist
  refine le_trans (((hnd.sublist hsub).subperm (l₂ := List.range n) fun t ht => ?_).length_le) (by simp)
  have := h.plan.planning.job t (hsub.subset ht)
  rwa [Problem.job, h.problem.trips] at this

/-- C86 is false: with more vehicles than rides, the submission written has too few lines. -/
theorem C86_lines_missing (hr : FileText text rows) (hd : HashCodeData rows f n b T) (hf : n < f) {S : Problem → Heap → Settings}
    (hS : ∀ P h, (S P h).Of P.env P.fleet P.job) (hstr : ∀ P h, (S P h).strategy.Ends) {fuel : Nat} (hn : n < fuel) :
    ¬ WritesValidSubmission rows f n source target fun P => insertionOptimize P.env P.objective (S P) fuel none := by
  intro h
  let w : Site := ⟨({ content := .ok [] }, .empty), fun _ => some text, [], [], []⟩
  obtain ⟨P, l, w', e, hs⟩ := C86_insertion_submission_partial (euclid := manhattan) (columnar := fun _ _ => pure []) (source := source) (target := target)
    (removeEmpty := true) (w := w) rfl hr hd (by omega) hS hstr empty_noDangling hn
  obtain ⟨o, ho, hv⟩ := h manhattan (fun _ _ => pure []) w text _ w' rfl hr empty_noDangling e
  have := hs.few_lines ho
  have := hv.vehicles
  omega

end

/-! ## Cases -/

/-- A file with the demo problem: two vehicles, two rides. -/
def demoInput : Text := "3 4 2 2 2 10\n0 1 1 3 2 3\n0 0 4 0 0 9\n".toList

theorem demoInput_rows : FileText demoInput demoHashCode := fileData_iff.1 (C84_plain_rows [[3, 4, 2, 2, 2, 10], [0, 1, 1, 3, 2, 3], [0, 0, 4, 0, 0, 9]])

/-- Nothing but the input file, nothing loaded, no objects. -/
def demoSite : Site := ⟨({ content := .ok [] }, .empty), fun p => if p = "a.in".toList then some demoInput else none, [], [], []⟩

/-- The run with insertion. -/
def demoRun : Except Err Item × Site :=
  (fileSolver manhattan (fun _ _ => pure []) "a.in".toList "a.out".toList hashcodeInput (hashcodeOutput true) fun P =>
    insertionOptimize P.env P.objective (fun _ => plainSettings P.env P.fleet P.job .intensive 1) 5 none).solve demoSite

theorem plainSettings_of (P : Problem) : (plainSettings P.env P.fleet P.job .intensive 1).Of P.env P.fleet P.job :=
  ⟨rfl, rfl, rfl, plainSettings_fair _ _ _ _, Nat.one_pos⟩

/-- The hypotheses of C86 hold: the run writes a submission for the two rides and two vehicles. -/
example : ∃ P l w', demoRun = (.ok (.result P l), w') ∧ Submitted demoHashCode 2 2 2 true "a.out".toList demoSite w' P l :=
  C86_insertion_submission_partial (text := demoInput) (by simp [demoSite]) demoInput_rows demoHashCode_shape (by omega) (fun P _ => plainSettings_of P)
    (fun _ _ _ _ _ h => nomatch h) empty_noDangling (by omega)

end Jinete
