import Verif.Spec.Programs
import Verif.Props.Defaults
import Verif.Props.Options
import Verif.Props.Plot

/-!
# C99 to C102: the programs in examples/
-/

set_option autoImplicit false

namespace Jinete

/-! ## Storing -/

/-- The objects are those of a good plan, with the verdicts they had in `h`. -/
structure KeepsPlan (P : Problem) (l : List Nat) (h h' : Heap) : Prop where
  core : h'.core = h.core
  sound : ∀ r ∈ l, Sound P.env h' r
  verdicts : ∀ r ∈ l, SaysFeasible P.env h' r ↔ SaysFeasible P.env h r

theorem columnarOutput_same {P : Problem} (hE : EnvOK P.env) {h : Heap} {rs : List Nat} (hg : GoodPlan P.env P.fleet P.job h rs) (str : ℚ → Text) (uuid : Text)
    (seconds : ℚ) (hjob : P.trips ≠ []) (hne : P.vehicles ≠ []) :
    ∃ x, ShowsPlan P.env P.ident P.vehicleIdent h P.objective false P.job rs x ∧
      ∀ h2, KeepsPlan P rs h h2 → ∃ h', columnarOutput str uuid seconds P rs h2 = (.ok (x.text str "  ".toList), h') ∧ KeepsPlan P rs h h' := by
  have hrs : rs ≠ [] := by
    rintro rfl
    have := hg.planning.vehicles.length_eq
    rw [Problem.fleet, List.length_range] at this
    exact hne (List.length_eq_zero_iff.1 this.symm)
  have hj : P.job ≠ [] := by
    intro h0
    have := congrArg List.length h0
    rw [Problem.job, List.length_range] at this
    exact hjob (List.length_eq_zero_iff.1 this)
  obtain ⟨x, hx, H⟩ := columnarReport_same hE h P.ident P.vehicleIdent uuid seconds P.objective false P.job rs
    List.nodup_range hj hrs hg.planning.sound (fun r hr t ht => hg.planning.job t (List.mem_flatMap.2 ⟨r, hr, ht⟩))
  refine ⟨x, hx, fun h2 hk => ?_⟩
  obtain ⟨h', e, om, hs, hv⟩ := H h2 hk.core hk.sound hk.verdicts
  refine ⟨h', ?_, om.core.trans hk.core, hs, hv⟩
  unfold columnarOutput columnarFormat
  rw [Py.bind_ok e]
  rfl

/-- A set of storers does what its members should do, one after the other. -/
theorem storers_do {P : Problem} (hE : EnvOK P.env) {h : Heap} {rs : List Nat} (hg : GoodPlan P.env P.fleet P.job h rs) (str : ℚ → Text) (uuid : Text)
    (seconds : ℚ) (image : List Plot → Text) (hjob : P.trips ≠ []) (hne : P.vehicles ≠ []) :
    ∃ x g, ShowsPlan P.env P.ident P.vehicleIdent h P.objective false P.job rs x ∧ PlotOf P.env P.ident h.core rs P.job g ∧
      ∀ (l : List StorerName) (w : Site), .file none ∉ l → KeepsPlan P rs h w.data.2 →
        ∃ w', storerSetStore (l.map (storerNamed (columnarOutput str uuid seconds) image)) [("result", .result P rs)] w = (.ok (), w') ∧
          w'.outside = storeAll image (x.text str "  ".toList) g l w.outside ∧ KeepsPlan P rs h w'.data.2 := by
  obtain ⟨x, hx, H⟩ := columnarOutput_same hE hg str uuid seconds hjob hne
  obtain ⟨g, eg, hgr⟩ := C96_plot_made P.env P.ident h.core rs P.job
  refine ⟨x, g, hx, hgr, fun l => ?_⟩
  have plot : ∀ w : Site, KeepsPlan P rs h w.data.2 → onObjects (plotOutput P rs) w.data = (.ok g, w.data) := by
    intro w hk
    simp only [onObjects, plotOutput, hk.core, eg]
  -- one storer
  have one : ∀ (s : StorerName) (w : Site), s ≠ .file none → KeepsPlan P rs h w.data.2 →
      ∃ w', (do let storer ← storerNamed (columnarOutput str uuid seconds) image s [("result", .result P rs)]; storer.store) w = (.ok (), w') ∧
        w'.outside = s.stores image (x.text str "  ".toList) g w.outside ∧ KeepsPlan P rs h w'.data.2 := by
    intro s w hs hk
    obtain ⟨h', e, hk'⟩ := H _ hk
    have et : onObjects (columnarOutput str uuid seconds P rs) w.data = (.ok (x.text str "  ".toList), (w.data.1, h')) := by
      simp only [onObjects, e]
    match s with
    | .naive => exact ⟨w, rfl, rfl, hk⟩
    | .prompt =>
      have hc : storerNamed (columnarOutput str uuid seconds) image .prompt [("result", .result P rs)] =
        pure ⟨promptStore (onObjects (columnarOutput str uuid seconds P rs))⟩ := rfl
      rw [hc, Py.pure_bind]
      unfold promptStore
      exact ⟨_, (Py.bind_ok (s' := { w with data := (w.data.1, h') }) (a := x.text str "  ".toList) (by simp only [onData, et])).trans rfl, rfl, hk'⟩
    | .file (some p) =>
      have hc : storerNamed (columnarOutput str uuid seconds) image (.file (some p)) [("result", .result P rs)] =
        pure ⟨fileStore p (onObjects (columnarOutput str uuid seconds P rs))⟩ := rfl
      rw [hc, Py.pure_bind]
      unfold fileStore
      simp only
      rw [Py.modify_bind]
      refine ⟨_, (Py.bind_ok (s' := ⟨(w.data.1, h'), fun q => if q = p then some [] else w.file q, w.printed, w.figure, w.shown⟩) (a := x.text str "  ".toList)
        (by simp only [onData, et])).trans rfl, ?_, hk'⟩
      simp only [World.outside, StorerName.stores]
      congr 1
      funext q
      by_cases hq : q = p <;> simp [hq]
    | .graph (some p) =>
      have hc : storerNamed (columnarOutput str uuid seconds) image (.graph (some p)) [("result", .result P rs)] =
        pure ⟨graphStore image (some p) (onObjects (plotOutput P rs))⟩ := rfl
      rw [hc, Py.pure_bind]
      exact ⟨_, C98_saved (plot w hk), rfl, hk⟩
    | .graph none =>
      have hc : storerNamed (columnarOutput str uuid seconds) image (.graph none) [("result", .result P rs)] =
        pure ⟨graphStore image none (onObjects (plotOutput P rs))⟩ := rfl
      rw [hc, Py.pure_bind]
      exact ⟨_, C98_shown (image := image) (plot w hk), rfl, hk⟩
  induction l with
  | nil => exact fun w _ hk => ⟨w, rfl, rfl, hk⟩
  | cons s l ih =>
    intro w hl hk
    obtain ⟨w1, e1, o1, k1⟩ := one s w (fun h => hl (by simp [h])) hk
    obtain ⟨w2, e2, o2, k2⟩ := ih w1 (fun h => hl (by simp [h])) k1
    refine ⟨w2, ?_, ?_, k2⟩
    · rw [List.map_cons]
      exact (Py.bind_ok e1).trans e2
    · rw [o2, o1]
      rfl

/-! ## How a program runs -/

section Run

variable {U : Setup} {source text : Text} {w : Site} {trips : List LoadedTrip} {vehicles : List LoadedVehicle} {s s' : LoaderState ℚ}

/-- The keyword arguments an algorithm is constructed with. -/
def givenArgs (P : Problem) (kwargs : Kwargs Item) : Kwargs Item := ("fleet", .fleet P.vehicles) :: ("job", .job P.metric P.objective P.trips) :: kwargs

/-- What an algorithm does in a program. -/
def programRun (U : Setup) (c : ClassName) (kwargs : Kwargs Item) (P : Problem) : M (List Nat) :=
  runClass P.env P.objective U.chance U.depth c (optionsFor P (givenArgs P kwargs))

/-- Once the problem is loaded, the outcome is that of the algorithm, then that of the storer. -/
theorem solve_with {F : InputFormat} {lk ak sk : Kwargs Item} {algorithm : Class Site Item (AlgorithmObj Site Item)} {run : M (List Nat)}
    {storer : Class Site Item (StorerObj Site)} {store : List Nat → Py Site Unit}
    (ht : w.file source = some text) (hl : tuned (fileLoader U.euclid) lk [] = newFileLoader source F)
    (hj : loaderJob F.formatter (LoaderState.ofText text) = (.ok trips, s)) (hf : loaderFleet F.formatter s = (.ok vehicles, s'))
    (ha : tuned algorithm ak [("fleet", .fleet vehicles), ("job", .job F.metric F.objective trips)] = pure
      { optimize := do
          let routes ← onData (onObjects run)
          pure (.result ⟨F.metric, F.objective, trips, vehicles⟩ routes) })
    (hs : ∀ rs, tuned storer sk [("result", .result ⟨F.metric, F.objective, trips, vehicles⟩ rs)] = pure ⟨store rs⟩) :
    (Solver.mk (fileLoader U.euclid) lk algorithm ak storer sk []).solve w =
      match run w.data.2 with
      | (.error e, h) => (.error e, w.withData (s', h))
      | (.ok rs, h) =>
        match store rs (w.withData (s', h)) with
        | (.error e, w') => (.error e, w')
        | (.ok _, w') => (.ok (.result ⟨F.metric, F.objective, trips, vehicles⟩ rs), w') := by
  unfold Solver.solve
  simp only [List.isEmpty_nil, if_true]
  unfold staticRun
  rw [hl]
  unfold newFileLoader
  rw [Py.bind_assoc_run, Py.modify_bind]
  rw [ht]
  simp only [Option.elim_some]
  rw [Py.pure_bind, Py.bind_assoc_run]
  refine (Py.bind_ok (show onLoader (loaderJob F.formatter) (w.withData (LoaderState.ofText text, w.data.2)) =
    (.ok trips, w.withData (s, w.data.2)) by simp only [onLoader, onData, World.withData, hj])).trans ?_
  rw [Py.pure_bind, Py.bind_assoc_run]
  rw [Py.bind_ok (show onLoader (loaderFleet F.formatter) (w.withData (s, w.data.2)) = (.ok vehicles, w.withData (s', w.data.2)) by
    simp only [onLoader, onData, World.withData, hf])]
  rw [Py.pure_bind]
  rw [ha, Py.pure_bind, Py.bind_assoc_run]
  rcases e : run w.data.2 with ⟨er | rs, h⟩
  · rw [Py.bind_error (s' := w.withData (s', h)) (e := er) (by simp only [onData, onObjects, World.withData, e])]
  · rw [Py.bind_ok (s' := w.withData (s', h)) (a := rs) (by simp only [onData, onObjects, World.withData, e])]
    rw [Py.pure_bind, hs, Py.pure_bind, Py.bind_run]
    simp only
    rcases store rs (w.withData (s', h)) with ⟨er | u, w'⟩
    · rfl
    · rfl

theorem tuned_named {c : ClassName} {kwargs : Kwargs Item} (hk : ("fleet" :: "job" :: kwargs.map Prod.fst).Nodup) (P : Problem) :
    tuned (algorithmNamed U.chance U.depth c) kwargs [("fleet", .fleet P.vehicles), ("job", .job P.metric P.objective P.trips)] = pure
      { optimize := do
          let routes ← onData (onObjects (programRun U c kwargs P))
          pure (.result P routes) } := by
  unfold tuned
  rw [if_pos (by simpa using hk)]
  rfl

end Run

/-! ## Programs for Cordeau-Laporte files -/

section Cordeau

variable {U : Setup} {source text : Text} {w : Site} {rows : Rows} {m n : Nat} {T Q L dx dy : ℚ} {str : ℚ → Text} {uuid : Text} {seconds : ℚ}
  {trips : List LoadedTrip} {vehicles : List LoadedVehicle} {s s' : LoaderState ℚ}

/-- A run that stored its result: the result is a good plan, and files, prints and figures are those that the storers should leave,
given a report and a plot that show the plan. -/
structure StoredBy (image : List Plot → Text) (str : ℚ → Text) (storers : List StorerName) (w w' : Site) (P : Problem) (l : List Nat) : Prop where
  plan : GoodPlan P.env P.fleet P.job w'.data.2 l
  stored : ∃ x g, ShowsPlan P.env P.ident P.vehicleIdent w'.data.2 P.objective false P.job l x ∧ PlotOf P.env P.ident w'.data.2.core l P.job g ∧
    w'.outside = storeAll image (x.text str "  ".toList) g storers w.outside

theorem ShowsPlan.onlyMemos {P : Problem} {h h' : Heap} {l : List Nat} {x : Overview}
    (hx : ShowsPlan P.env P.ident P.vehicleIdent h P.objective false P.job l x) (hk : KeepsPlan P l h h') :
    ShowsPlan P.env P.ident P.vehicleIdent h' P.objective false P.job l x := by
  obtain ⟨h1, h2, h3, h4, h5, h6⟩ := hx
  refine ⟨?_, ?_, ?_, h4, ?_, ?_⟩
  · rw [hk.core]; exact h1
  · rw [hk.core]; exact h2
  · rw [hk.core]; exact h3
  · rw [hk.core]; exact h5
  · rw [h6]
    exact forall₂_congr fun r hr => (hk.verdicts r hr).symm

/-- Whatever the algorithm: good plans are stored, and errors leave everything outside as it was. -/
theorem stored_with {algorithm : Class Site Item (AlgorithmObj Site Item)} {kwargs : Kwargs Item} {run : M (List Nat)} {storers : List StorerName}
    (hcol : U.columnar = columnarOutput str uuid seconds)
    (ht : w.file source = some text) (e1 : loaderJob (cordeauFormatter ℚ) (LoaderState.ofText text) = (.ok trips, s))
    (e2 : loaderFleet (cordeauFormatter ℚ) s = (.ok vehicles, s')) (hP : CordeauProblem U.euclid rows m n T Q L dx dy ⟨U.euclid, .dialARide, trips, vehicles⟩)
    (hs : SensibleRows rows n) (he : ∀ a b, 0 ≤ U.euclid a b) (hm : 0 < m) (hn : 0 < n) (hl : .file none ∉ storers)
    (ha : tuned algorithm kwargs [("fleet", .fleet vehicles), ("job", .job U.euclid .dialARide trips)] = pure
      { optimize := do
          let routes ← onData (onObjects run)
          pure (.result ⟨U.euclid, .dialARide, trips, vehicles⟩ routes) }) :
    (∀ l h', run w.data.2 = (.ok l, h') →
      GoodPlan (Problem.env ⟨U.euclid, .dialARide, trips, vehicles⟩) (Problem.fleet ⟨U.euclid, .dialARide, trips, vehicles⟩)
        (Problem.job ⟨U.euclid, .dialARide, trips, vehicles⟩) h' l →
      ∃ w', (solverOf U source algorithm kwargs storers).solve w = (.ok (.result ⟨U.euclid, .dialARide, trips, vehicles⟩ l), w') ∧
        StoredBy U.image str storers w w' ⟨U.euclid, .dialARide, trips, vehicles⟩ l ∧
        RequestsServed (Problem.env ⟨U.euclid, .dialARide, trips, vehicles⟩) rows n Q L w'.data.2 l ∧
        KeepsPlan ⟨U.euclid, .dialARide, trips, vehicles⟩ l h' w'.data.2) ∧
    ∀ e h', run w.data.2 = (.error e, h') →
      ∃ w', (solverOf U source algorithm kwargs storers).solve w = (.error e, w') ∧ w'.outside = w.outside := by
  have hE := hP.envOK hs he
  have hv0 : vehicles ≠ [] := fun h => by have := hP.vehicles; rw [h] at this; simp at this; omega
  have ht0 : trips ≠ [] := fun h => by have := hP.trips; rw [h] at this; simp at this; omega
  have main : (solverOf U source algorithm kwargs storers).solve w = _ :=
    solve_with (U := U) (source := source) (F := cordeauInput U.euclid) (ak := kwargs) (lk := [("file_path", .path source)])
    (storer := storerSet U.columnar U.image) (sk := [("storer_cls_set", .storers storers)])
    (store := fun rs => storerSetStore (storers.map (storerNamed U.columnar U.image)) [("result", .result ⟨U.euclid, .dialARide, trips, vehicles⟩ rs)])
    ht rfl e1 e2 ha (fun _ => rfl)
  refine ⟨fun l h' e hg => ?_, fun er h' e => ?_⟩
  · obtain ⟨x, g, hx, hgr, H⟩ := storers_do hE hg str uuid seconds U.image ht0 hv0
    obtain ⟨w', e3, ho, hk'⟩ := H storers (w.withData (s', h')) hl ⟨rfl, hg.planning.sound, fun _ _ => Iff.rfl⟩
    have hg' := hg.onlyMemos hk'.core hk'.sound
    simp only [cordeauInput, e, hcol, e3] at main
    exact ⟨w', main, ⟨hg', x, g, hx.onlyMemos hk', by rw [hk'.core]; exact hgr, ho⟩, hg'.requestsServed hP, hk'⟩
  · simp only [e] at main
    exact ⟨_, main, rfl⟩

theorem program_run {c : ClassName} {kwargs : Kwargs Item} {storers : List StorerName} (hcol : U.columnar = columnarOutput str uuid seconds)
    (ht : w.file source = some text) (e1 : loaderJob (cordeauFormatter ℚ) (LoaderState.ofText text) = (.ok trips, s))
    (e2 : loaderFleet (cordeauFormatter ℚ) s = (.ok vehicles, s')) (hP : CordeauProblem U.euclid rows m n T Q L dx dy ⟨U.euclid, .dialARide, trips, vehicles⟩)
    (hs : SensibleRows rows n) (he : ∀ a b, 0 ≤ U.euclid a b) (hm : 0 < m) (hn : 0 < n) (hl : .file none ∉ storers)
    (hk : ("fleet" :: "job" :: kwargs.map Prod.fst).Nodup) :
    (∀ l h', programRun U c kwargs ⟨U.euclid, .dialARide, trips, vehicles⟩ w.data.2 = (.ok l, h') →
      GoodPlan (Problem.env ⟨U.euclid, .dialARide, trips, vehicles⟩) (Problem.fleet ⟨U.euclid, .dialARide, trips, vehicles⟩)
        (Problem.job ⟨U.euclid, .dialARide, trips, vehicles⟩) h' l →
      ∃ w', (cordeauProgram U source c kwargs storers).solve w = (.ok (.result ⟨U.euclid, .dialARide, trips, vehicles⟩ l), w') ∧
        StoredBy U.image str storers w w' ⟨U.euclid, .dialARide, trips, vehicles⟩ l ∧
        RequestsServed (Problem.env ⟨U.euclid, .dialARide, trips, vehicles⟩) rows n Q L w'.data.2 l) ∧
    ∀ e h', programRun U c kwargs ⟨U.euclid, .dialARide, trips, vehicles⟩ w.data.2 = (.error e, h') →
      ∃ w', (cordeauProgram U source c kwargs storers).solve w = (.error e, w') ∧ w'.outside = w.outside := by
  have h := stored_with (kwargs := kwargs) hcol ht e1 e2 hP hs he hm hn hl (tuned_named (U := U) (c := c) hk ⟨U.euclid, .dialARide, trips, vehicles⟩)
  refine ⟨fun l h' e hg => ?_, h.2⟩
  obtain ⟨w', h1, h2, h3, _⟩ := h.1 l h' e hg
  exact ⟨w', h1, h2, h3⟩

/-! ### What the sets of storers leave, in any order -/

/-- Printed and shown, as examples/cordeau does: the report is printed, the plot is shown (with what else is on the figure), the
figure is gone and no file is touched. -/
structure PrintedAndShown (str : ℚ → Text) (w w' : Site) (P : Problem) (l : List Nat) : Prop where
  plan : GoodPlan P.env P.fleet P.job w'.data.2 l
  stored : ∃ x g, ShowsPlan P.env P.ident P.vehicleIdent w'.data.2 P.objective false P.job l x ∧ PlotOf P.env P.ident w'.data.2.core l P.job g ∧
    w'.printed = w.printed ++ [x.text str "  ".toList] ∧ w'.shown = w.shown ++ [w.figure ++ [g]]
  figure : w'.figure = []
  file : w'.file = w.file

/-- Put beside the instance, as the benchmark does: the report is printed and written to `….output`, the image with the plot is
written to `….png`, no other file is touched, nothing is shown. -/
structure PutBeside (image : List Plot → Text) (str : ℚ → Text) (source : Text) (w w' : Site) (P : Problem) (l : List Nat) : Prop where
  plan : GoodPlan P.env P.fleet P.job w'.data.2 l
  stored : ∃ x g, ShowsPlan P.env P.ident P.vehicleIdent w'.data.2 P.objective false P.job l x ∧ PlotOf P.env P.ident w'.data.2.core l P.job g ∧
    w'.printed = w.printed ++ [x.text str "  ".toList] ∧ w'.file (source ++ ".output".toList) = some (x.text str "  ".toList) ∧
    w'.file (source ++ ".png".toList) = some (image (w.figure ++ [g])) ∧ w'.figure = w.figure ++ [g]
  shown : w'.shown = w.shown
  others : ∀ p, p ≠ source ++ ".output".toList → p ≠ source ++ ".png".toList → w'.file p = w.file p

theorem exampleStorers_store {image : List Plot → Text} {report : Text} {g : Plot} {l : List StorerName} (hl : l.Perm exampleStorers) (w : World Unit) :
    storeAll image report g l w = ⟨(), w.file, w.printed ++ [report], [], w.shown ++ [w.figure ++ [g]]⟩ := by
  unfold storeAll
  rw [hl.foldl_eq' (by
    intro a ha b hb z
    have ha := hl.mem_iff.1 ha
    have hb := hl.mem_iff.1 hb
    simp only [exampleStorers, List.mem_cons, List.not_mem_nil, or_false] at ha hb
    rcases ha with rfl | rfl <;> rcases hb with rfl | rfl <;> rfl)]
  rfl

theorem png_ne_output (source : Text) : source ++ ".png".toList ≠ source ++ ".output".toList := fun h => by
  have := List.append_cancel_left h
  revert this
  decide

theorem benchmarkStorers_store {image : List Plot → Text} {report : Text} {g : Plot} {source : Text} {l : List StorerName} (hl : l.Perm (benchmarkStorers source))
    (w : World Unit) : storeAll image report g l w =
      ⟨(), fun q => if q = source ++ ".output".toList then some report else if q = source ++ ".png".toList then some (image (w.figure ++ [g])) else w.file q,
        w.printed ++ [report], w.figure ++ [g], w.shown⟩ := by
  have hne := png_ne_output source
  unfold storeAll
  rw [hl.foldl_eq' (by
    intro a ha b hb z
    have ha := hl.mem_iff.1 ha
    have hb := hl.mem_iff.1 hb
    simp only [benchmarkStorers, List.mem_cons, List.not_mem_nil, or_false] at ha hb
    rcases ha with rfl | rfl | rfl <;> rcases hb with rfl | rfl | rfl <;> try rfl
    all_goals
      simp only [StorerName.stores]
      congr 1
      funext q
      by_cases h1 : q = source ++ ".png".toList
      · subst h1; simp only [if_neg hne, if_true]
      · simp only [if_neg h1])]
  rfl

theorem StoredBy.printedAndShown {image : List Plot → Text} {l : List StorerName} (hl : l.Perm exampleStorers) {w' : Site} {P : Problem} {rs : List Nat}
    (h : StoredBy image str l w w' P rs) : PrintedAndShown str w w' P rs := by
  obtain ⟨hp, x, g, hx, hg, e⟩ := h
  rw [exampleStorers_store hl] at e
  refine ⟨hp, ⟨x, g, hx, hg, congrArg World.printed e, congrArg World.shown e⟩, congrArg World.figure e, (congrArg World.file e : w'.outside.file = _)⟩

theorem StoredBy.putBeside {image : List Plot → Text} {l : List StorerName} (hl : l.Perm (benchmarkStorers source)) {w' : Site} {P : Problem} {rs : List Nat}
    (h : StoredBy image str l w w' P rs) : PutBeside image str source w w' P rs := by
  obtain ⟨hp, x, g, hx, hg, e⟩ := h
  rw [benchmarkStorers_store hl] at e
  have ef : ∀ q, w'.outside.file q = _ := congrFun (congrArg World.file e)
  refine ⟨hp, ⟨x, g, hx, hg, congrArg World.printed e, (ef _).trans (if_pos rfl), ?_, congrArg World.figure e⟩, (congrArg World.shown e : w'.outside.shown = _), fun p h1 h2 => ?_⟩
  · exact (ef _).trans ((if_neg (png_ne_output source)).trans (if_pos rfl))
  · exact (ef _).trans ((if_neg h1).trans (if_neg h2))

theorem exampleStorers_paths {l : List StorerName} (hl : l.Perm exampleStorers) : .file none ∉ l := fun h => by
  have := hl.mem_iff.1 h
  simp [exampleStorers] at this

theorem benchmarkStorers_paths {l : List StorerName} (hl : l.Perm (benchmarkStorers source)) : .file none ∉ l := fun h => by
  have := hl.mem_iff.1 h
  simp [benchmarkStorers] at this

/-! ### C99: insertion -/

/-- Insertion at all positions, and all defaults. -/
def intensiveDefaults : InsertionArgs := ⟨.intensive, .earliestLastDeparture, some 24, 1, true⟩

/-- **C99.** examples/cordeau/example_insertion.py, on any file with Cordeau-Laporte data that make sense, with at least one vehicle and
one request, in whatever order the set of storers is iterated: it returns a good plan, prints the report of it and shows its plot;
served requests get what their rows ask for. No file is touched. Needed are more rounds than requests. -/
theorem C99_insertion_program (hcol : U.columnar = columnarOutput str uuid seconds) (ht : w.file source = some text) (hr : FileText text rows)
    (hd : CordeauData rows m n T Q L dx dy) (hs : SensibleRows rows n) (he : ∀ a b, 0 ≤ U.euclid a b) (hm : 0 < m) (hn : 0 < n) (hC : U.chance.Fair)
    (nd : NoDangling w.data.2.core) (hfuel : n < U.chance.fuel) (hdepth : 1 ≤ U.depth) {storers : List StorerName} (hst : storers.Perm exampleStorers) :
    ∃ P l w', (insertionProgram U source storers).solve w = (.ok (.result P l), w') ∧ CordeauProblem U.euclid rows m n T Q L dx dy P ∧
      PrintedAndShown str w w' P l ∧ RequestsServed P.env rows n Q L w'.data.2 l := by
  obtain ⟨trips, vehicles, s, s', e1, e2, hP⟩ := cordeau_problem hd U.euclid hr
  have hE := hP.envOK hs he
  have fne : (Problem.fleet ⟨U.euclid, .dialARide, trips, vehicles⟩) ≠ [] := by
    rw [Problem.fleet, hP.vehicles]
    simp [hm.ne']
  obtain ⟨d, hd'⟩ : ∃ d, U.depth = d + 1 := ⟨U.depth - 1, by omega⟩
  have hrun := program_run (c := .insertion) (kwargs := [("strategy_cls", .arg (.cls .intensive))]) hcol ht e1 e2 hP hs he hm hn (exampleStorers_paths hst) (by simp)
  have key : ∀ P : Problem, programRun U .insertion [("strategy_cls", .arg (.cls .intensive))] P w.data.2 =
      insertionOptimize P.env P.objective (intensiveDefaults.settings P.env U.chance P.fleet P.job (.int 56)) U.chance.fuel none w.data.2 := fun P => by
    unfold programRun
    rw [hd']
    exact C93_insertion_as_called (A := intensiveDefaults) ⟨.inl rfl, .inr ⟨.inl rfl, rfl⟩, .inr (.inr ⟨rfl, rfl⟩), .inr ⟨rfl, rfl⟩, .inr ⟨rfl, rfl⟩,
      .inr (.inl rfl), rfl, rfl, rfl⟩ rfl rfl (.inl rfl) d w.data.2
  have hS := fun h => intensiveDefaults.settings_of (E := Problem.env ⟨U.euclid, .dialARide, trips, vehicles⟩) hC Nat.one_pos
    (Problem.fleet ⟨U.euclid, .dialARide, trips, vehicles⟩) (Problem.job ⟨U.euclid, .dialARide, trips, vehicles⟩) (.int 56) h
  obtain ⟨l, h', e⟩ := insertion_returns hE fne List.nodup_range List.nodup_range hS nd .dialARide (fun _ _ _ _ h => nomatch h)
    (by rw [List.length_range, hP.trips]; exact hfuel)
  rcases insertion_planned (fuel := U.chance.fuel) hE fne List.nodup_range List.nodup_range hS nd .dialARide with ⟨l', h2, e', hg⟩ | ⟨h2, e'⟩
  · obtain ⟨w', e3, h3, h4⟩ := hrun.1 l' h2 ((key _).trans e') hg
    exact ⟨_, l', w', e3, hP, h3.printedAndShown hst, h4⟩
  · have := e'.symm.trans e
    cases this

/-! ### C99, C100: GRASP -/

theorem graspProgram_args (P : Problem) : GraspArgs
    (optionsFor P (givenArgs P [("first_solution_kwargs", .arg (.options (Options.of [("episodes", .int 1), ("randomized_size", .int 2)]))), ("episodes", .arg (.int 5))]))
    (Options.of [("episodes", .int 1), ("randomized_size", .int 2)]) .none P.fleet P.job twoCandidates insertionDefaults 5 1 1 where
  hasFleet := rfl
  hasJob := rfl
  hasFirst := .inl rfl
  hasSearch := .inr ⟨.inl rfl, rfl⟩
  hasEpisodes := .inl rfl
  outer := by intro x hx; simp at hx; rcases hx with rfl | rfl | rfl | rfl <;> rfl
  hasFirstEpisodes := .inl rfl
  firstArgs := exampleGrasp_args.firstArgs
  firstPlain := exampleGrasp_args.firstPlain
  hasThreshold := .inr ⟨rfl, rfl⟩
  searchPlain := by intro x hx; rfl
  searchArgs := insertionDefaults_in

/-- GRASP with any set of storers that know their paths. -/
theorem grasp_program {euclid : Pos → Pos → ℚ} (hr : FileText text rows) (hd : CordeauData rows m n T Q L dx dy) (hs : SensibleRows rows n)
    (he : ∀ a b, 0 ≤ euclid a b) (hm : 0 < m) (hn : 0 < n) :
    ∃ N, ∀ (U : Setup) (storers : List StorerName) (source : Text) (w : Site), U.euclid = euclid → U.columnar = columnarOutput str uuid seconds →
      w.file source = some text → U.chance.Fair → NoDangling w.data.2.core → 6 ≤ U.depth → .file none ∉ storers →
      (∃ P l w', (graspProgram U source storers).solve w = (.ok (.result P l), w') ∧ CordeauProblem euclid rows m n T Q L dx dy P ∧
        StoredBy U.image str storers w w' P l ∧ RequestsServed P.env rows n Q L w'.data.2 l) ∨
      (∃ w', (graspProgram U source storers).solve w = (.error .outOfFuel, w') ∧ w'.outside = w.outside) ∧
        ((∀ h, (Inserting.sampling.strategy U.chance h).Ends) → U.chance.fuel < N) := by
  obtain ⟨trips, vehicles, s, s', e1, e2, hP⟩ := cordeau_problem hd euclid hr
  have hE := hP.envOK hs he
  have fne : (Problem.fleet ⟨euclid, .dialARide, trips, vehicles⟩) ≠ [] := by
    rw [Problem.fleet, hP.vehicles]
    simp [hm.ne']
  obtain ⟨N, hN⟩ := C93_grasp_as_called_returns hE fne List.nodup_range (job := Problem.job ⟨euclid, .dialARide, trips, vehicles⟩) List.nodup_range 1
    (k := .dialARide) (by decide)
  refine ⟨N, ?_⟩
  rintro U storers source w rfl hcol ht hC nd hdepth hl
  obtain ⟨d, hd'⟩ : ∃ d, U.depth = d + 6 := ⟨U.depth - 6, by omega⟩
  have hrun := program_run (c := .grasp) (kwargs := [("first_solution_kwargs", .arg (.options (Options.of [("episodes", .int 1), ("randomized_size", .int 2)]))),
    ("episodes", .arg (.int 5))]) hcol ht e1 e2 hP hs he hm hn hl (by simp)
  have G := graspProgram_args ⟨U.euclid, .dialARide, trips, vehicles⟩
  unfold programRun at hrun
  rw [hd'] at hrun
  rcases C93_grasp_as_called hE fne List.nodup_range List.nodup_range hC G (by decide) (by decide) (by omega) (by omega) nd .dialARide d with
    ⟨l, h', e, g1, g2, g3, g4, _⟩ | ⟨h', e⟩
  · obtain ⟨w', e3, h3, h4⟩ := hrun.1 l h' e ⟨g1, g2, g3, g4⟩
    exact .inl ⟨_, l, w', e3, hP, h3, h4⟩
  · obtain ⟨w', e3, h3⟩ := hrun.2 _ h' e
    refine .inr ⟨⟨w', e3, h3⟩, fun hend => ?_⟩
    by_contra hc
    obtain ⟨l, h2, e4⟩ := hN U.chance _ _ _ _ _ _ _ d w.data.2 hC G (by decide) (by decide) (by omega) (by omega) (fun h => ⟨hend h, hend h⟩) nd (by omega)
    have := e.symm.trans e4
    cases this

/-- **C99, GRASP.** examples/cordeau/example_grasp.py in the same way: the report is printed and the plot shown, or a loop does not end within
the rounds given and nothing is printed, shown or written. There is a number of rounds, depending only on the data and distances, which
suffices if sampling ends. -/
theorem C99_grasp_program {euclid : Pos → Pos → ℚ} (hr : FileText text rows) (hd : CordeauData rows m n T Q L dx dy) (hs : SensibleRows rows n)
    (he : ∀ a b, 0 ≤ euclid a b) (hm : 0 < m) (hn : 0 < n) :
    ∃ N, ∀ (U : Setup) (storers : List StorerName) (source : Text) (w : Site), U.euclid = euclid → U.columnar = columnarOutput str uuid seconds →
      w.file source = some text → U.chance.Fair → NoDangling w.data.2.core → 6 ≤ U.depth → storers.Perm exampleStorers →
      (∃ P l w', (graspProgram U source storers).solve w = (.ok (.result P l), w') ∧ CordeauProblem euclid rows m n T Q L dx dy P ∧
        PrintedAndShown str w w' P l ∧ RequestsServed P.env rows n Q L w'.data.2 l) ∨
      (∃ w', (graspProgram U source storers).solve w = (.error .outOfFuel, w') ∧ w'.outside = w.outside) ∧
        ((∀ h, (Inserting.sampling.strategy U.chance h).Ends) → U.chance.fuel < N) := by
  obtain ⟨N, hN⟩ := grasp_program (str := str) (uuid := uuid) (seconds := seconds) hr hd hs he hm hn
  refine ⟨N, fun U storers source w h1 h2 h3 h4 h5 h6 hst => ?_⟩
  rcases hN U storers source w h1 h2 h3 h4 h5 h6 (exampleStorers_paths hst) with ⟨P, l, w', e, hP, h7, h8⟩ | h
  · exact .inl ⟨P, l, w', e, hP, h7.printedAndShown hst, h8⟩
  · exact .inr h

/-- **C100.** examples/cordeau/benchmark_solve.py: whatever the order of the set, the report is printed and put into `….output`, the image into
`….png`, and nothing else is written; in particular the instance stays as it is. If a loop does not end, nothing is written at all. -/
theorem C100_benchmark_program {euclid : Pos → Pos → ℚ} (hr : FileText text rows) (hd : CordeauData rows m n T Q L dx dy) (hs : SensibleRows rows n)
    (he : ∀ a b, 0 ≤ euclid a b) (hm : 0 < m) (hn : 0 < n) :
    ∃ N, ∀ (U : Setup) (storers : List StorerName) (source : Text) (w : Site), U.euclid = euclid → U.columnar = columnarOutput str uuid seconds →
      w.file source = some text → U.chance.Fair → NoDangling w.data.2.core → 6 ≤ U.depth → storers.Perm (benchmarkStorers source) →
      (∃ P l w', (graspProgram U source storers).solve w = (.ok (.result P l), w') ∧ CordeauProblem euclid rows m n T Q L dx dy P ∧
        PutBeside U.image str source w w' P l ∧ w'.file source = some text ∧ RequestsServed P.env rows n Q L w'.data.2 l) ∨
      (∃ w', (graspProgram U source storers).solve w = (.error .outOfFuel, w') ∧ w'.outside = w.outside) ∧
        ((∀ h, (Inserting.sampling.strategy U.chance h).Ends) → U.chance.fuel < N) := by
  obtain ⟨N, hN⟩ := grasp_program (str := str) (uuid := uuid) (seconds := seconds) hr hd hs he hm hn
  refine ⟨N, fun U storers source w h1 h2 h3 h4 h5 h6 hst => ?_⟩
  rcases hN U storers source w h1 h2 h3 h4 h5 h6 (benchmarkStorers_paths hst) with ⟨P, l, w', e, hP, h7, h8⟩ | h
  · have h9 := h7.putBeside hst
    exact .inl ⟨P, l, w', e, hP, h9, (h9.others source (by simp) (by simp)).trans h3, h8⟩
  · exact .inr h

/-! ### C101: two-opt -/

theorem twoOptProgram_args (P : Problem) : GraspCall
    (optionsFor P (givenArgs P [("first_solution_kwargs", .arg (.options (Options.of [("episodes", .int 1), ("strategy_cls", .cls .intensive)]))),
      ("local_search_kwargs", .arg (.options (Options.of [("strategy_cls", .cls .twoOpt)])))]))
    (.of [("episodes", .int 1), ("strategy_cls", .cls .intensive)]) (.of [("strategy_cls", .cls .twoOpt)]) P.fleet P.job intensiveDefaults 3 1 1 where
  hasFleet := rfl
  hasJob := rfl
  hasFirst := .inl rfl
  hasSearch := .inl rfl
  hasEpisodes := .inr ⟨rfl, rfl⟩
  outer := by intro x hx; simp at hx; rcases hx with rfl | rfl | rfl | rfl <;> rfl
  hasFirstEpisodes := .inl rfl
  firstArgs := exampleTwoOpt_args.firstArgs
  firstPlain := exampleTwoOpt_args.firstPlain
  hasThreshold := .inr ⟨rfl, rfl⟩
  searchPlain := exampleTwoOpt_args.searchPlain

/-- The full claim: examples/cordeau/example_two_opt.py returns a result, given the rounds it needs. -/
def TwoOptProgramReturns : Prop :=
  ∀ (rows : Rows) (m n : Nat) (T Q L dx dy : ℚ) (U : Setup) (source text : Text) (w : Site) (str : ℚ → Text) (uuid : Text) (seconds : ℚ),
    CordeauData rows m n T Q L dx dy → SensibleRows rows n → (∀ a b, 0 ≤ U.euclid a b) → 0 < m → 0 < n → U.columnar = columnarOutput str uuid seconds →
    w.file source = some text → FileText text rows → U.chance.Fair → NoDangling w.data.2.core → 6 ≤ U.depth →
    ∃ fuel x w', (twoOptProgram { U with chance := { U.chance with fuel := fuel } } source exampleStorers).solve w = (.ok x, w')

/-- **C101.** examples/cordeau/example_two_opt.py never returns, on no instance, and whatever storers it has: it raises, and nothing is printed, shown
or written. -/
theorem C101_two_opt_program_fails (hcol : U.columnar = columnarOutput str uuid seconds) (ht : w.file source = some text) (hr : FileText text rows)
    (hd : CordeauData rows m n T Q L dx dy) (hs : SensibleRows rows n) (he : ∀ a b, 0 ≤ U.euclid a b) (hm : 0 < m) (hn : 0 < n) (hC : U.chance.Fair)
    (nd : NoDangling w.data.2.core) (hdepth : 6 ≤ U.depth) {storers : List StorerName} (hst : .file none ∉ storers) :
    ∃ e w', (twoOptProgram U source storers).solve w = (.error e, w') ∧ w'.outside = w.outside := by
  obtain ⟨trips, vehicles, s, s', e1, e2, hP⟩ := cordeau_problem hd U.euclid hr
  have hE := hP.envOK hs he
  have fne : (Problem.fleet ⟨U.euclid, .dialARide, trips, vehicles⟩) ≠ [] := by
    rw [Problem.fleet, hP.vehicles]
    simp [hm.ne']
  obtain ⟨d, hd'⟩ : ∃ d, U.depth = d + 6 := ⟨U.depth - 6, by omega⟩
  have hrun := program_run (c := .grasp) (kwargs := [("first_solution_kwargs", .arg (.options (Options.of [("episodes", .int 1), ("strategy_cls", .cls .intensive)]))),
     ("local_search_kwargs", .arg (.options (Options.of [("strategy_cls", .cls .twoOpt)])))]) hcol ht e1 e2 hP hs he hm hn hst (by simp)
  have never := fun l h' => C92_search_strategy_never_returns hE fne List.nodup_range List.nodup_range hC
    (twoOptProgram_args ⟨U.euclid, .dialARide, trips, vehicles⟩) (by decide) (by omega) (by omega) (c := .twoOpt) rfl rfl (.inl rfl) rfl nd .dialARide d l h'
  unfold programRun at hrun
  rw [hd'] at hrun
  rcases e : runClass (Problem.env ⟨U.euclid, .dialARide, trips, vehicles⟩) .dialARide U.chance (d + 6) .grasp
    (optionsFor ⟨U.euclid, .dialARide, trips, vehicles⟩ (givenArgs ⟨U.euclid, .dialARide, trips, vehicles⟩
      [("first_solution_kwargs", .arg (.options (Options.of [("episodes", .int 1), ("strategy_cls", .cls .intensive)]))),
     ("local_search_kwargs", .arg (.options (Options.of [("strategy_cls", .cls .twoOpt)])))])) w.data.2 with ⟨er | l, h'⟩
  · exact ⟨er, hrun.2 er h' e⟩
  · exact (never l h' e).elim

end Cordeau

/-! ## C102: Hash Code -/

section HashCode

variable {U : Setup} {source text : Text} {w : Site} {rows : Rows} {f n : Nat} {b T : ℚ} {str : ℚ → Text} {uuid : Text} {seconds : ℚ}

/-- **C102.** examples/hashcode/example_insertion.py, on any file with Hash Code data, at least one vehicle and one ride: it returns a good plan
that meets all constraints and prints the columnar report of it (not a submission); no file is touched. The insertion is the one with the
default criterion, not the criterion the program names. -/
theorem C102_hashcode_program (hcol : U.columnar = columnarOutput str uuid seconds) (ht : w.file source = some text) (hr : FileText text rows)
    (hd : HashCodeData rows f n b T) (hf : 0 < f) (hn : 0 < n) (hC : U.chance.Fair) (hend : ∀ h, (Inserting.sampling.strategy U.chance h).Ends)
    (nd : NoDangling w.data.2.core) (hfuel : n < U.chance.fuel) (hdepth : 1 ≤ U.depth) :
    ∃ P l w' h', (hashcodeProgram U source).solve w = (.ok (.result P l), w') ∧ HashCodeProblem rows f n P ∧ Reported str w w' P l ∧
      ServesFeasibly P.env w'.data.2 l ∧
      insertionOptimize P.env P.objective ((⟨.sampling, .earliestLastDeparture, none, 1, true⟩ : InsertionArgs).settings P.env U.chance P.fleet P.job (.int 56))
        U.chance.fuel none w.data.2 = (.ok l, h') := by
  obtain ⟨trips, vehicles, s, s', e1, e2, hP⟩ := hashcode_problem hd hr
  have fne : (Problem.fleet ⟨manhattan, .hashCode, trips, vehicles⟩) ≠ [] := by
    rw [Problem.fleet, hP.vehicles]
    simp [hf.ne']
  have hv0 : vehicles ≠ [] := fun h => by have := hP.vehicles; rw [h] at this; simp at this; omega
  have ht0 : trips ≠ [] := fun h => by have := hP.trips; rw [h] at this; simp at this; omega
  obtain ⟨d, hd'⟩ : ∃ d, U.depth = d + 1 := ⟨U.depth - 1, by omega⟩
  have main : (hashcodeProgram U source).solve w = _ :=
    solve_with (U := U) (source := source) (F := hashcodeInput)
    (ak := [("criterion", .arg (.cls (.criterion .hashCode))), ("neighborhood_max_size", .arg .none)])
    (lk := [("file_path", .path source), ("formatter_cls", .input hashcodeInput)]) (storer := promptStorer U.columnar) (sk := [])
    (store := fun rs => promptStore (onObjects (U.columnar ⟨manhattan, .hashCode, trips, vehicles⟩ rs)))
    ht rfl e1 e2 (tuned_named (U := U) (c := .insertion) (by simp) ⟨manhattan, .hashCode, trips, vehicles⟩) (fun _ => rfl)
  have key : programRun U .insertion [("criterion", .arg (.cls (.criterion .hashCode))), ("neighborhood_max_size", .arg .none)]
        ⟨manhattan, .hashCode, trips, vehicles⟩ w.data.2 =
      insertionOptimize (Problem.env ⟨manhattan, .hashCode, trips, vehicles⟩) .hashCode ((⟨.sampling, .earliestLastDeparture, none, 1, true⟩ : InsertionArgs).settings
        (Problem.env ⟨manhattan, .hashCode, trips, vehicles⟩) U.chance (Problem.fleet ⟨manhattan, .hashCode, trips, vehicles⟩)
        (Problem.job ⟨manhattan, .hashCode, trips, vehicles⟩) (.int 56)) U.chance.fuel none w.data.2 := by
    unfold programRun
    rw [hd']
    exact C93_insertion_as_called (A := ⟨.sampling, .earliestLastDeparture, none, 1, true⟩) ⟨.inr ⟨.inl rfl, rfl⟩, .inr ⟨.inl rfl, rfl⟩, .inr (.inl ⟨rfl, rfl⟩),
      .inr ⟨rfl, rfl⟩, .inr ⟨rfl, rfl⟩, .inr (.inl rfl), rfl, rfl, rfl⟩ rfl rfl (.inl rfl) d w.data.2
  have hS := fun h => (⟨.sampling, .earliestLastDeparture, none, 1, true⟩ : InsertionArgs).settings_of
    (E := Problem.env ⟨manhattan, .hashCode, trips, vehicles⟩) hC Nat.one_pos
    (Problem.fleet ⟨manhattan, .hashCode, trips, vehicles⟩) (Problem.job ⟨manhattan, .hashCode, trips, vehicles⟩) (.int 56) h
  obtain ⟨l, h', e⟩ := insertion_returns hP.ok fne List.nodup_range List.nodup_range hS nd .hashCode hend
    (by rw [List.length_range, hP.trips]; exact hfuel)
  rcases insertion_planned (fuel := U.chance.fuel) hP.ok fne List.nodup_range List.nodup_range hS nd .hashCode with ⟨l', h2, e', hg⟩ | ⟨h2, e'⟩
  · obtain ⟨x, h3, e3, hg3, hx⟩ := columnarOutput_run hP.ok hg str uuid seconds ht0 hv0
    have e4 : promptStore (onObjects (U.columnar ⟨manhattan, .hashCode, trips, vehicles⟩ l')) (w.withData (s', h2)) =
        (.ok (), (w.withData (s', h3)).withPrinted (x.text str "  ".toList)) := by
      rw [hcol]
      unfold promptStore
      exact (Py.bind_ok (s' := w.withData (s', h3)) (a := x.text str "  ".toList) (by simp only [onData, onObjects, World.withData, e3])).trans rfl
    simp only [hashcodeInput, key, e', e4] at main
    exact ⟨_, l', _, h2, main, hP, ⟨hg3, ⟨x, rfl, hx⟩, rfl⟩, hg3.feasibly hP.rideLimit hP.maxDuration, e'⟩
  · have := e'.symm.trans e
    cases this

/-- The program without its criterion. -/
def hashcodeProgramWithout (U : Setup) (source : Text) : Solver Site Item :=
  { hashcodeProgram U source with algorithmKwargs := [("neighborhood_max_size", .arg .none)] }

/-- **C102, the criterion.** Naming a criterion as this program does has no effect whatsoever: in any world, whether the file is there or
not and whatever is in it, the outcome is the same without it. -/
theorem C102_criterion_ignored (U : Setup) (source : Text) (w : Site) : (hashcodeProgram U source).solve w = (hashcodeProgramWithout U source).solve w := by
  have key : ∀ fleet job : Item,
      tuned (algorithmNamed U.chance U.depth .insertion) [("criterion", .arg (.cls (.criterion .hashCode))), ("neighborhood_max_size", .arg .none)]
        [("fleet", fleet), ("job", job)] =
      tuned (algorithmNamed U.chance U.depth .insertion) [("neighborhood_max_size", .arg .none)] [("fleet", fleet), ("job", job)] := by
    intro fleet job
    unfold tuned
    rw [if_pos (by simp), if_pos (by simp)]
    have options : ∀ P : Problem, runClass P.env P.objective U.chance U.depth .insertion (optionsFor P
          [("fleet", fleet), ("job", job), ("criterion", .arg (.cls (.criterion .hashCode))), ("neighborhood_max_size", .arg .none)]) =
        runClass P.env P.objective U.chance U.depth .insertion (optionsFor P [("fleet", fleet), ("job", job), ("neighborhood_max_size", .arg .none)]) := by
      intro P
      funext h
      refine C95_insertion_ignores_unknown (fun x hx => ?_) (.inr (.inl rfl)) U.depth h
      simp at hx
      rcases hx with rfl | rfl | rfl | rfl | rfl | rfl | rfl | rfl | rfl | rfl | rfl | rfl | rfl | rfl <;> rfl
    simp only [List.cons_append, List.nil_append, algorithmNamed, options]
    rfl
  unfold hashcodeProgramWithout hashcodeProgram Solver.solve staticRun
  simp only [key]

end HashCode

/-! ## Cases -/

/-- A chance for which sampling ends: all pairs are drawn in turn. -/
def turnChance (fuel : Nat) : Chance := { plainChance fuel with stream := fun _ _ _ => inTurn }

theorem turnChance_fair (fuel : Nat) : (turnChance fuel).Fair where
  order := (plainChance_fair fuel).order
  choice := (plainChance_fair fuel).choice
  stream := fun _ _ _ k lo hi h => inTurn_randInt k lo hi h
  draws := (plainChance_fair fuel).draws

/-- A setup for the cases. -/
def caseSetup (fuel : Nat) : Setup where
  euclid := manhattan
  columnar := columnarOutput (fun _ => []) [] 0
  image := fun _ => "image".toList
  chance := turnChance fuel
  depth := 6

/-- All files have this text. -/
def caseSite (text : Text) : Site := ⟨({ content := .ok [] }, .empty), fun _ => some text, [], [], []⟩

/-- C99 for the demo problem, with the storers in the other order. -/
example : ∃ P l w', (insertionProgram (caseSetup 5) "a".toList [.graph none, .prompt]).solve (caseSite demoCordeauText) = (.ok (.result P l), w') ∧
    CordeauProblem manhattan demoCordeau 2 2 480 6 90 1 2 P ∧ PrintedAndShown (fun _ => []) (caseSite demoCordeauText) w' P l ∧
    RequestsServed P.env demoCordeau 2 6 90 w'.data.2 l :=
  C99_insertion_program (U := caseSetup 5) (uuid := []) (seconds := 0) (text := demoCordeauText) rfl rfl demoCordeauText_rows demoCordeau_shape
    demoCordeau_sensible manhattan_nonneg (by omega) (by omega) (turnChance_fair 5) empty_noDangling (by decide) (by decide) (List.Perm.swap _ _ _)

/-- C99 and C100 for the demo problem: with enough rounds both programs with GRASP store the result. -/
example : ∃ N, (∃ P l w', (graspProgram (caseSetup N) "a".toList exampleStorers).solve (caseSite demoCordeauText) = (.ok (.result P l), w') ∧
      PrintedAndShown (fun _ => []) (caseSite demoCordeauText) w' P l) ∧
    ∃ P l w', (graspProgram (caseSetup N) "a".toList (benchmarkStorers "a".toList)).solve (caseSite demoCordeauText) = (.ok (.result P l), w') ∧
      PutBeside (fun _ => "image".toList) (fun _ => []) "a".toList (caseSite demoCordeauText) w' P l := by
  obtain ⟨N, hN⟩ := C99_grasp_program (str := fun _ => []) (uuid := []) (seconds := 0) demoCordeauText_rows demoCordeau_shape demoCordeau_sensible manhattan_nonneg
    (by omega) (by omega)
  obtain ⟨N', hN'⟩ := C100_benchmark_program (str := fun _ => []) (uuid := []) (seconds := 0) demoCordeauText_rows demoCordeau_shape demoCordeau_sensible
    manhattan_nonneg (by omega) (by omega)
  have ends : ∀ k h, (Inserting.sampling.strategy (turnChance k) h).Ends := fun _ _ => ends_inTurn 128
  refine ⟨max N N', ?_, ?_⟩
  · rcases hN (caseSetup (max N N')) exampleStorers "a".toList (caseSite demoCordeauText) rfl rfl rfl (turnChance_fair _) empty_noDangling (Nat.le_refl 6) (.refl _) with
      ⟨P, l, w', e, _, h, _⟩ | ⟨_, h⟩
    · exact ⟨P, l, w', e, h⟩
    · have : max N N' < N := h (ends _)
      omega
  · rcases hN' (caseSetup (max N N')) _ "a".toList (caseSite demoCordeauText) rfl rfl rfl (turnChance_fair _) empty_noDangling (Nat.le_refl 6) (.refl _) with
      ⟨P, l, w', e, _, h, _⟩ | ⟨_, h⟩
    · exact ⟨P, l, w', e, h⟩
    · have : max N N' < N' := h (ends _)
      omega

/-- C101 for the demo problem. -/
example : ∃ e w', (twoOptProgram (caseSetup 9) "a".toList exampleStorers).solve (caseSite demoCordeauText) = (.error e, w') ∧
    w'.outside = (caseSite demoCordeauText).outside :=
  C101_two_opt_program_fails (U := caseSetup 9) (uuid := []) (seconds := 0) (str := fun _ => []) (text := demoCordeauText) rfl rfl demoCordeauText_rows demoCordeau_shape
    demoCordeau_sensible manhattan_nonneg (by omega) (by omega) (turnChance_fair 9) empty_noDangling (by decide) (exampleStorers_paths (.refl _))

/-- **C101.** The full claim is false. -/
theorem C101_claim_fails : ¬ TwoOptProgramReturns := by
  intro H
  obtain ⟨fuel, x, w', e⟩ := H demoCordeau 2 2 480 6 90 1 2 (caseSetup 9) "a".toList demoCordeauText (caseSite demoCordeauText) (fun _ => []) [] 0 demoCordeau_shape
    demoCordeau_sensible manhattan_nonneg (by omega) (by omega) rfl rfl demoCordeauText_rows (turnChance_fair 9) empty_noDangling (by decide)
  obtain ⟨er, w'', e', _⟩ := C101_two_opt_program_fails (U := caseSetup fuel) (source := "a".toList) (w := caseSite demoCordeauText) (uuid := []) (seconds := 0)
    (str := fun _ => []) (text := demoCordeauText) rfl rfl demoCordeauText_rows demoCordeau_shape demoCordeau_sensible manhattan_nonneg (by omega) (by omega)
    (turnChance_fair fuel) empty_noDangling (Nat.le_refl 6) (exampleStorers_paths (.refl _))
  have := e.symm.trans e'
  cases this

/-- C102 for the demo problem of Hash Code. -/
example : ∃ P l w', (hashcodeProgram (caseSetup 5) "a".toList).solve (caseSite demoInput) = (.ok (.result P l), w') ∧ HashCodeProblem demoHashCode 2 2 P ∧
    Reported (fun _ => []) (caseSite demoInput) w' P l := by
  obtain ⟨P, l, w', _, e, h1, h2, _⟩ := C102_hashcode_program (U := caseSetup 5) (source := "a".toList) (w := caseSite demoInput) (uuid := []) (seconds := 0)
    (str := fun _ => []) rfl rfl demoInput_rows demoHashCode_shape (by omega) (by omega) (turnChance_fair 5) (fun _ => ends_inTurn 128) empty_noDangling (by decide) (by decide)
  exact ⟨P, l, w', e, h1, h2⟩

/-- Two rides of which a vehicle can serve either, but not both. -/
def rivalEnv : Env where
  metric := manhattan
  trip := fun t => if t = 0 then { origin := { position := [0] }, destination := { position := [1], latest := .fin 3 } }
    else { origin := { position := [0] }, destination := { position := [-5], latest := .fin 6 } }
  vehicle := fun _ => { origin := { position := [0] }, capacity := 1 }

/-- The arguments of the program for this problem, with other names for its criterion. -/
def rivalOptions (name : String) : Options :=
  .of [("fleet", .fleet [0]), ("job", .job [0, 1]), (name, .cls (.criterion .hashCode)), ("neighborhood_max_size", .none)]

/-- The value reported for a run. -/
def valueReported (k : Objective) (E : Env) (r : Except Err (List Nat) × Heap) : Option (List ℚ) :=
  match r.1 with
  | .ok l => (resultValue E k l r.2).1.toOption
  | .error _ => none

/-- **C102.** It would make a difference to name the criterion as the constructor does: a different ride is served, and the reported value is
higher. -/
theorem C102_criterion_would_matter :
    tripsServedBy (runClass rivalEnv .hashCode (plainChance 9) 1 .insertion (rivalOptions "criterion") .empty) = some [[0]] ∧
    tripsServedBy (runClass rivalEnv .hashCode (plainChance 9) 1 .insertion (rivalOptions "criterion_cls") .empty) = some [[1]] ∧
    valueReported .hashCode rivalEnv (runClass rivalEnv .hashCode (plainChance 9) 1 .insertion (rivalOptions "criterion") .empty) = some [1] ∧
    valueReported .hashCode rivalEnv (runClass rivalEnv .hashCode (plainChance 9) 1 .insertion (rivalOptions "criterion_cls") .empty) = some [5] := by
  decide +kernel

end Jinete
