import Verif.Props.Show
import Verif.Props.Solve

/-!
# C107: printing what was loaded
-/

set_option autoImplicit false

namespace Jinete

variable {U : Setup} {W : Wording} {source text : Text} {rows : Rows} {w : Site}

theorem loaderSurface_first : loaderSurface ({ content := .ok rows } : LoaderState ℚ) =
    (.ok (SurfaceState.new []), { content := .ok rows, reads := 1, formatter := some rows, surface := some (SurfaceState.new []) }) := rfl

theorem loaderFleet_second (F : LoaderFormatter ℚ) (sf : SurfaceState ℚ) :
    loaderFleet F { content := .ok rows, reads := 1, formatter := some rows, surface := some sf } =
      match F.fleet rows sf with
      | (.ok fleet, sf') => (.ok fleet, { content := .ok rows, reads := 1, formatter := some rows, surface := some sf', fleet := some fleet })
      | (.error e, sf') => (.error e, { content := .ok rows, reads := 1, formatter := some rows, surface := some sf' }) := by
  have e : loaderFleet F ({ content := .ok rows, reads := 1, formatter := some rows, surface := some sf } : LoaderState ℚ) =
      (onSurface (F.fleet rows) >>= fun v => Py.modify (fun s => { s with fleet := some v }) >>= fun _ => pure v)
      { content := .ok rows, reads := 1, formatter := some rows, surface := some sf } := rfl
  rw [e, Py.bind_run]
  simp only [onSurface]
  rcases F.fleet rows sf with ⟨_ | _, _⟩ <;> rfl

theorem loaderJob_third (F : LoaderFormatter ℚ) (sf : SurfaceState ℚ) (fleet : List LoadedVehicle) :
    loaderJob F { content := .ok rows, reads := 1, formatter := some rows, surface := some sf, fleet := some fleet } =
      match F.job rows sf with
      | (.ok job, sf') => (.ok job, { content := .ok rows, reads := 1, formatter := some rows, surface := some sf', fleet := some fleet, job := some job })
      | (.error e, sf') => (.error e, { content := .ok rows, reads := 1, formatter := some rows, surface := some sf', fleet := some fleet }) := by
  have e : loaderJob F ({ content := .ok rows, reads := 1, formatter := some rows, surface := some sf, fleet := some fleet } : LoaderState ℚ) =
      (onSurface (F.job rows) >>= fun v => Py.modify (fun s => { s with job := some v }) >>= fun _ => pure v)
      { content := .ok rows, reads := 1, formatter := some rows, surface := some sf, fleet := some fleet } := rfl
  rw [e, Py.bind_run]
  simp only [onSurface]
  rcases F.job rows sf with ⟨_ | _, _⟩ <;> rfl

theorem onLoader_ok {α : Type} {x : Py (LoaderState ℚ) α} {s : LoaderState ℚ} {r : Except Err α} {s' : LoaderState ℚ} (e : x s = (r, s')) (h : Heap) (f : Text → Option Text)
    (p : List Text) (g : List Plot) (l : List (List Plot)) : onLoader x ⟨(s, h), f, p, g, l⟩ = (r, ⟨(s', h), f, p, g, l⟩) := by
  simp only [onLoader, onData, e]

/-- What the program prints and how it ends, for a file with these rows. -/
theorem readDataset_run {F : InputFormat} {formatter : Option InputFormat} (hF : formatter.getD (cordeauInput U.euclid) = F)
    (ht : w.file source = some text) (hr : FileText text rows) :
    ∃ s : LoaderState ℚ, readDataset U W source formatter w =
      let w' (l : List Text) : Site := { w with data := (s, w.data.2), printed := w.printed ++ l }
      let t1 := "Surface: \n  ".toList ++ surfaceText W.str (W.positions [])
      match F.formatter.fleet rows (SurfaceState.new []) with
      | (.error e, _) => (.error e, w' [t1])
      | (.ok vehicles, sf) =>
        let t2 := "Fleet: \n  ".toList ++ fleetText ((W.vehicles vehicles).map LoadedVehicle.identifier)
        match F.formatter.job rows sf with
        | (.error e, _) => (.error e, w' [t1, t2])
        | (.ok trips, _) =>
          (.ok (), w' [t1, t2, "Job: \n  ".toList ++ jobText (W.objective F.objective) ((W.trips trips).map LoadedTrip.identifier)]) := by
  have hk : fileLoader U.euclid (("file_path", .path source) :: (formatter.elim [] fun F => [("formatter_cls", .input F)])) = newFileLoader source F := by
    cases formatter with
    | none => exact hF ▸ rfl
    | some G => exact hF ▸ rfl
  have hs : (w.file source).elim ({ content := .error .runtime } : LoaderState ℚ) LoaderState.ofText = { content := .ok rows } := by
    rw [ht]
    show LoaderState.ofText text = _
    unfold LoaderState.ofText
    rw [fileData_iff.2 hr]
  unfold readDataset
  dsimp only
  rw [hk]
  unfold newFileLoader
  obtain ⟨⟨s0, h⟩, f, p, g, l⟩ := w
  rw [Py.bind_assoc_run, Py.modify_bind]
  dsimp only at hs ⊢
  rw [hs, Py.pure_bind, Py.bind_ok (onLoader_ok loaderSurface_first h f p g l)]
  unfold sayText
  rw [Py.modify_bind]
  have e1 := loaderFleet_second (rows := rows) F.formatter (SurfaceState.new [])
  rcases hf : F.formatter.fleet rows (SurfaceState.new []) with ⟨e | vehicles, sf⟩
  · rw [hf] at e1
    refine ⟨{ content := .ok rows, reads := 1, formatter := some rows, surface := some sf }, ?_⟩
    dsimp only at e1 ⊢
    rw [Py.bind_assoc_run, Py.bind_error (onLoader_ok e1 h f _ g l)]
    rfl
  · rw [hf] at e1
    dsimp only at e1 ⊢
    have e2 := loaderJob_third (rows := rows) F.formatter sf vehicles
    rcases hj : F.formatter.job rows sf with ⟨e | trips, sf'⟩
    · rw [hj] at e2
      refine ⟨{ content := .ok rows, reads := 1, formatter := some rows, surface := some sf', fleet := some vehicles }, ?_⟩
      dsimp only at e2 ⊢
      rw [Py.bind_assoc_run, Py.bind_ok (onLoader_ok e1 h f _ g l), Py.pure_bind]
      dsimp only
      rw [Py.modify_bind, Py.bind_assoc_run]
      dsimp only
      rw [Py.bind_error (onLoader_ok e2 h f _ g l)]
      simp
      rfl
    · rw [hj] at e2
      refine ⟨{ content := .ok rows, reads := 1, formatter := some rows, surface := some sf', fleet := some vehicles, job := some trips }, ?_⟩
      dsimp only at e2 ⊢
      rw [Py.bind_assoc_run, Py.bind_ok (onLoader_ok e1 h f _ g l), Py.pure_bind]
      dsimp only
      rw [Py.modify_bind, Py.bind_assoc_run]
      dsimp only
      rw [Py.bind_ok (onLoader_ok e2 h f _ g l), Py.pure_bind]
      simp [Py.modify]
      rfl

/-- Sets are iterated in some order of their elements. -/
structure Wording.Fair (W : Wording) : Prop where
  positions : ∀ l, (W.positions l).Perm l
  vehicles : ∀ l, (W.vehicles l).Perm l
  trips : ∀ l, (W.trips l).Perm l

/-- The line about a surface without positions. -/
def bareSurface : Text := "Surface: \n  GeometricSurface(position_coordinates=())".toList

/-- The line names these vehicles, in some order. -/
def FleetLine (names : List Text) (line : Text) : Prop := ∃ l t, l.Perm names ∧ FleetShown l t ∧ line = "Fleet: \n  ".toList ++ t

/-- The line names these trips, in some order. -/
def JobLine (names : List Text) (line : Text) : Prop := ∃ l t, l.Perm names ∧ JobShown l t ∧ line = "Job: \n  ".toList ++ t

/-- Nothing but what is printed and the loader has changed. -/
structure OnlyPrinted (w w' : Site) (l : List Text) : Prop where
  printed : w'.printed = w.printed ++ l
  file : w'.file = w.file
  objects : w'.data.2 = w.data.2
  figure : w'.figure = w.figure
  shown : w'.shown = w.shown

theorem Wording.Fair.bare (hW : W.Fair) : "Surface: \n  ".toList ++ surfaceText W.str (W.positions []) = bareSurface := by
  rw [List.perm_nil.1 (hW.positions [])]
  show "Surface: \n  ".toList ++ printed "GeometricSurface" [("position_coordinates", tupleRepr [])] = _
  decide +kernel

theorem Wording.Fair.fleet (hW : W.Fair) (l : List LoadedVehicle) :
    FleetLine (l.map LoadedVehicle.identifier) ("Fleet: \n  ".toList ++ fleetText ((W.vehicles l).map LoadedVehicle.identifier)) :=
  ⟨_, _, (hW.vehicles l).map _, (C104_fleet_and_job [] _).1, rfl⟩

theorem Wording.Fair.job (hW : W.Fair) (o : Text) (l : List LoadedTrip) :
    JobLine (l.map LoadedTrip.identifier) ("Job: \n  ".toList ++ jobText o ((W.trips l).map LoadedTrip.identifier)) :=
  ⟨_, _, (hW.trips l).map _, (C104_fleet_and_job o _).2.1, rfl⟩

/-- The program shows an instance with these vehicles and trips: it ends and prints a surface without positions, the vehicles and the trips. -/
def ShowsInstance (U : Setup) (W : Wording) (source : Text) (formatter : Option InputFormat) (vehicles trips : List Text) (w : Site) : Prop :=
  ∃ w' a b, readDataset U W source formatter w = (.ok (), w') ∧ OnlyPrinted w w' [bareSurface, a, b] ∧ FleetLine vehicles a ∧ JobLine trips b

theorem shows_of_loaded {F : InputFormat} {formatter : Option InputFormat} (hW : W.Fair) (hF : formatter.getD (cordeauInput U.euclid) = F)
    (ht : w.file source = some text) (hr : FileText text rows) {vs : List LoadedVehicle} {ts : List LoadedTrip} {sf sf' : SurfaceState ℚ}
    (hf : F.formatter.fleet rows (SurfaceState.new []) = (.ok vs, sf)) (hj : F.formatter.job rows sf = (.ok ts, sf')) :
    ShowsInstance U W source formatter (vs.map LoadedVehicle.identifier) (ts.map LoadedTrip.identifier) w := by
  obtain ⟨s, e⟩ := readDataset_run (W := W) hF ht hr
  simp only [hf, hj] at e
  exact ⟨_, _, _, e, ⟨by rw [hW.bare], rfl, rfl, rfl, rfl⟩, hW.fleet vs, hW.job _ ts⟩

/-- **C107, part.** Given a Cordeau-Laporte file and no formatter, or a Hash Code file and its formatter, the program prints a surface
without positions and then the vehicles `0, 1, ...` and the trips, `1, 2, ...` or `0, 1, ...`, of the file. Missing: Hash Code files without
formatter, which is how the program is called. -/
theorem C107_dataset_shown_partial (hW : W.Fair) (ht : w.file source = some text) (hr : FileText text rows) :
    (∀ m n T Q L dx dy, CordeauData rows m n T Q L dx dy →
      ShowsInstance U W source none ((List.range m).map decimal) ((List.range n).map fun k => decimal (k + 1)) w) ∧
    ∀ f n b T, HashCodeData rows f n b T → ShowsInstance U W source (some hashcodeInput) ((List.range f).map decimal) ((List.range n).map decimal) w := by
  constructor
  · intro m n T Q L dx dy hd
    obtain ⟨sf, e1, _⟩ := cordeauFleet_run hd (SurfaceState.new (D := ℚ) [])
    obtain ⟨sf', e2, _⟩ := cordeauJob_run hd sf
    have := shows_of_loaded (U := U) (formatter := none) hW rfl ht hr e1 e2
    simpa [Function.comp_def, cordeauVehicleOf, cordeauTripOf] using this
  · intro f n b T hd
    obtain ⟨sf, e1, _⟩ := hashcodeFleet_run hd (SurfaceState.new (D := ℚ) [])
    obtain ⟨sf', e2, _⟩ := hashcodeJob_run hd sf
    have := shows_of_loaded (U := U) (formatter := some hashcodeInput) hW rfl ht hr e1 e2
    simpa [Function.comp_def, hashcodeTripOf] using this

/-- A Hash Code row has too few numbers for a row of a request. -/
theorem rideRow_short {row : List ℚ} {x1 y1 x2 y2 e l : ℚ} (h : RideRow row x1 y1 x2 y2 e l) (s : SurfaceState ℚ) :
    ∃ s', rowService row s = (.error .indexError, s') := by
  obtain ⟨rfl⟩ := h
  obtain ⟨s', e1, _⟩ := getOrCreatePosition_run (D := ℚ) [y1, x2] s
  refine ⟨s', ?_⟩
  unfold rowService
  rw [Py.bind_ok (show getOrCreatePosition (rowPosition [x1, y1, x2, y2, e, l]) s = (.ok [y1, x2], s') from e1)]
  rfl

theorem cordeauJob_of_rides {f n : Nat} {b T : ℚ} (hd : HashCodeData rows f n b T) {r c : ℚ} {rest : List ℚ} (hh : rows[0]? = some (r :: c :: rest))
    (s : SurfaceState ℚ) : (2 ≤ c → ∃ s', cordeauJob rows s = (.error .indexError, s')) ∧ (c < 2 → cordeauJob rows s = (.ok [], s)) := by
  have start : cordeauJob rows s = Py.mapEach (List.range (pyInt (c / 2).floor).toNat) (fun idx => cordeauTrip rows idx (pyInt (c / 2).floor).toNat) s := by
    unfold cordeauJob
    rw [Py.bind_ok (index_run hh s), Py.bind_ok (index_run (a := c) rfl s)]
  have hint : pyInt (((c / 2).floor : ℤ) : ℚ) = (c / 2).floor := by simp [pyInt]
  rw [start, hint]
  constructor
  · intro hc
    have hpos : 0 < (c / 2).floor.toNat := by
      have : (1 : ℤ) ≤ (c / 2).floor := Rat.le_floor_iff.2 (by push_cast; linarith)
      omega
    obtain ⟨k, hk⟩ := Nat.exists_eq_succ_of_ne_zero hpos.ne'
    rw [hk, List.range_succ_eq_map]
    have : ∃ s', cordeauTrip rows 0 (k + 1) s = (.error .indexError, s') := by
      unfold cordeauTrip
      by_cases hn : 1 < n
      · obtain ⟨row, x1, y1, x2, y2, e, l, h1, h2⟩ := hd.rides 1 hn
        obtain ⟨s', e1⟩ := rideRow_short h2 s
        exact ⟨s', by rw [Py.bind_ok (index_run (i := 0 + 2) h1 s), Py.bind_error e1]⟩
      · refine ⟨s, Py.bind_error ?_⟩
        unfold Py.index
        rw [List.getElem?_eq_none (by have := hd.length; omega)]
        rfl
    obtain ⟨s', e1⟩ := this
    exact ⟨s', by unfold Py.mapEach; rw [Py.bind_error e1]⟩
  · intro hc
    have : (c / 2).floor.toNat = 0 := by
      have : (c / 2).floor < 1 := Rat.floor_lt_iff.2 (by push_cast; linarith)
      omega
    rw [this]
    rfl

theorem cordeauFleet_of_rides {f n : Nat} {b T : ℚ} (hd : HashCodeData rows f n b T) {r c q g : ℚ} {rest : List ℚ}
    (hh : rows[0]? = some (r :: c :: g :: q :: rest)) (s : SurfaceState ℚ) :
    (n = 0 → cordeauFleet rows s = (.error .indexError, s)) ∧
    (0 < n → ∃ vs s', cordeauFleet rows s = (.ok vs, s') ∧ vs.map LoadedVehicle.identifier = (List.range (pyInt r).toNat).map decimal ∧
      ∀ v ∈ vs, v.vehicle.capacity = q ∧ v.vehicle.timeout = .fin g) := by
  unfold cordeauFleet
  rw [Py.bind_ok (index_run hh s), Py.bind_ok (index_run (a := r) rfl s)]
  constructor
  · rintro rfl
    refine Py.bind_error ?_
    unfold Py.index
    rw [List.getElem?_eq_none (by have := hd.length; omega)]
    rfl
  · intro hn
    obtain ⟨row, x1, y1, x2, y2, e, l, h1, h2⟩ := hd.rides 0 hn
    obtain ⟨s', e1, _⟩ := getOrCreatePosition_run (D := ℚ) (rowPosition row) s
    refine ⟨_, s', by rw [Py.bind_ok (index_run h1 s), Py.bind_ok e1]; rfl, by simp [Function.comp_def], ?_⟩
    intro v hv
    obtain ⟨k, _, rfl⟩ := List.mem_map.1 hv
    exact ⟨rfl, rfl⟩

/-- **C107, the program as it is called.** A Hash Code file `R C F N B T ...` is read as a Cordeau-Laporte one: with at least one ride and two
columns, the program prints the surface and `R` vehicles, not `F`, and then ends with `IndexError`, so that the job is never printed; with
fewer columns it prints a job without trips; without rides it ends before the fleet. -/
theorem C107_hashcode_read_as_cordeau (hW : W.Fair) (ht : w.file source = some text) (hr : FileText text rows) {f n : Nat} {b T : ℚ}
    (hd : HashCodeData rows f n b T) {r : Nat} {c q g : ℚ} {rest : List ℚ} (hh : rows[0]? = some ((r : ℚ) :: c :: g :: q :: rest)) :
    (0 < n → 2 ≤ c → ∃ w' a, readDataset U W source none w = (.error .indexError, w') ∧ OnlyPrinted w w' [bareSurface, a] ∧
      FleetLine ((List.range r).map decimal) a) ∧
    (0 < n → c < 2 → ShowsInstance U W source none ((List.range r).map decimal) [] w) ∧
    (n = 0 → ∃ w', readDataset U W source none w = (.error .indexError, w') ∧ OnlyPrinted w w' [bareSurface]) := by
  obtain ⟨h1, h2⟩ := cordeauFleet_of_rides hd hh (SurfaceState.new [])
  refine ⟨fun hn hc => ?_, fun hn hc => ?_, fun hn => ?_⟩
  · obtain ⟨vs, sf, e1, hv, _⟩ := h2 hn
    obtain ⟨sf', e2⟩ := (cordeauJob_of_rides hd hh sf).1 hc
    obtain ⟨s, e⟩ := readDataset_run (U := U) (W := W) (formatter := none) rfl ht hr
    have e1' : (cordeauInput U.euclid).formatter.fleet rows (SurfaceState.new []) = (.ok vs, sf) := e1
    have e2' : (cordeauInput U.euclid).formatter.job rows sf = (.error .indexError, sf') := e2
    simp only [Option.getD_none, e1', e2'] at e
    refine ⟨_, _, e, ⟨by rw [hW.bare], rfl, rfl, rfl, rfl⟩, ?_⟩
    have := hW.fleet vs
    rwa [hv, pyInt_natCast, Int.toNat_natCast] at this
  · obtain ⟨vs, sf, e1, hv, _⟩ := h2 hn
    have e2 := (cordeauJob_of_rides hd hh sf).2 hc
    have := shows_of_loaded (U := U) (formatter := none) hW rfl ht hr e1 e2
    rwa [hv, pyInt_natCast, Int.toNat_natCast] at this
  · obtain ⟨s, e⟩ := readDataset_run (U := U) (W := W) (formatter := none) rfl ht hr
    have e1' : (cordeauInput U.euclid).formatter.fleet rows (SurfaceState.new []) = (.error .indexError, _) := h1 hn
    simp only [Option.getD_none, e1'] at e
    exact ⟨_, e, by rw [hW.bare], rfl, rfl, rfl, rfl⟩

/-- The full claim: the program shows the instance, also a Hash Code one. -/
def DatasetShown (U : Setup) (W : Wording) (source text : Text) : Prop :=
  ∀ rows f n b T, FileText text rows → HashCodeData rows f n b T →
    ∀ w : Site, w.file source = some text → ShowsInstance U W source none ((List.range f).map decimal) ((List.range n).map decimal) w

/-- res/datasets/hashcode/a_example.in. -/
def aExample : Text := plainText [[3, 4, 2, 3, 2, 10], [0, 0, 1, 3, 2, 9], [1, 2, 1, 0, 0, 9], [2, 0, 2, 2, 0, 9]]

example : aExample = "3 4 2 3 2 10\n0 0 1 3 2 9\n1 2 1 0 0 9\n2 0 2 2 0 9\n".toList := by decide +kernel

/-- Its rows. -/
def aRows : Rows := [[3, 4, 2, 3, 2, 10], [0, 0, 1, 3, 2, 9], [1, 2, 1, 0, 0, 9], [2, 0, 2, 2, 0, 9]]

theorem aExample_rows : FileText aExample aRows :=
  fileData_iff.1 (C84_plain_rows [[3, 4, 2, 3, 2, 10], [0, 0, 1, 3, 2, 9], [1, 2, 1, 0, 0, 9], [2, 0, 2, 2, 0, 9]])

theorem aRows_shape : HashCodeData aRows 2 3 2 10 where
  header := ⟨3, 4, 3, [], rfl⟩
  length := rfl
  rides k hk := by
    match k, hk with
    | 0, _ => exact ⟨_, _, _, _, _, _, _, rfl, ⟨rfl⟩⟩
    | 1, _ => exact ⟨_, _, _, _, _, _, _, rfl, ⟨rfl⟩⟩
    | 2, _ => exact ⟨_, _, _, _, _, _, _, rfl, ⟨rfl⟩⟩

/-- **C107, the claim fails** for the file which the program names. -/
theorem C107_claim_fails (U : Setup) (hW : W.Fair) (source : Text) : ¬ DatasetShown U W source aExample := by
  intro hc
  let w : Site := ⟨({ content := .ok [] }, .empty), fun _ => some aExample, [], [], []⟩
  obtain ⟨w1, _, _, e, _⟩ := hc aRows 2 3 2 10 aExample_rows aRows_shape w rfl
  obtain ⟨w2, _, e', _⟩ := (C107_hashcode_read_as_cordeau (U := U) (w := w) (source := source) hW rfl aExample_rows aRows_shape (r := 3) (c := 4) (g := 2) (q := 3) (rest := [2, 10])
    rfl).1 (by decide) (by norm_num)
  rw [e] at e'
  exact absurd (congrArg Prod.fst e') (by simp)

end Jinete
