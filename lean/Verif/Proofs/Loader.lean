import Verif.Proofs.Text
import Mathlib.Data.Rat.Floor

/-!
# Running the loaders
-/

set_option autoImplicit false

namespace Jinete

variable {D : Type}

/-- `s'` is `s` with the positions `ps` added. -/
structure AddsPositions (s s' : SurfaceState D) (ps : List Pos) : Prop where
  cached : s'.cached = s.cached
  mem : ∀ p, p ∈ s'.positions ↔ p ∈ s.positions ∨ p ∈ ps
  nodup : s.positions.Nodup → s'.positions.Nodup

theorem AddsPositions.refl (s : SurfaceState D) : AddsPositions s s [] := ⟨rfl, by simp, id⟩

theorem AddsPositions.trans {s s' s'' : SurfaceState D} {ps qs : List Pos} (h : AddsPositions s s' ps)
    (h' : AddsPositions s' s'' qs) : AddsPositions s s'' (ps ++ qs) :=
  ⟨h'.cached.trans h.cached, fun p => by rw [h'.mem, h.mem, List.mem_append, or_assoc], fun hn => h'.nodup (h.nodup hn)⟩

theorem getOrCreatePosition_run (p : Pos) (s : SurfaceState D) :
    ∃ s', getOrCreatePosition p s = (.ok p, s') ∧ AddsPositions s s' [p] := by
  unfold getOrCreatePosition
  simp only [Py.read_bind]
  split
  · next hp =>
    refine ⟨s, rfl, rfl, fun q => ?_, id⟩
    simp only [List.mem_singleton]
    exact ⟨Or.inl, fun hq => hq.elim id (fun e => e ▸ hp)⟩
  · next hp =>
    refine ⟨_, rfl, rfl, fun q => ?_, fun hn => List.nodup_cons.2 ⟨hp, hn⟩⟩
    simp only [List.mem_cons]
    tauto

theorem index_run {σ α : Type} {l : List α} {i : Nat} {a : α} (h : l[i]? = some a) (s : σ) :
    Py.index l i s = (.ok a, s) := by
  simp [Py.index, h]

/-- Positions of the services of a trip. -/
def Trip.positions (t : Trip) : List Pos := [t.origin.position, t.destination.position]

theorem mapEach_adds {α β : Type} {l : List α} {f : α → Py (SurfaceState D) β} {g : α → β} {ps : β → List Pos}
    (hf : ∀ x ∈ l, ∀ s, ∃ s', f x s = (.ok (g x), s') ∧ AddsPositions s s' (ps (g x))) (s : SurfaceState D) :
    ∃ s', Py.mapEach l f s = (.ok (l.map g), s') ∧ AddsPositions s s' ((l.map g).flatMap ps) := by
  induction l generalizing s with
  | nil => exact ⟨s, rfl, AddsPositions.refl s⟩
  | cons x l ih =>
    obtain ⟨s1, e1, a1⟩ := hf x (by simp) s
    obtain ⟨s2, e2, a2⟩ := ih (fun y hy => hf y (by simp [hy])) s1
    refine ⟨s2, ?_, ?_⟩
    · rw [Py.mapEach, Py.bind_ok e1, Py.bind_ok e2]; rfl
    · rw [List.map_cons, List.flatMap_cons]; exact a1.trans a2

/-- The service described by a row. -/
def serviceOf (row : List ℚ) : Service :=
  { position := rowPosition row, earliest := row.getD 5 0, latest := .fin (row.getD 6 0), duration := row.getD 3 0 }

theorem serviceOf_servesRow {row : List ℚ} {x y d q e l : ℚ} (h : RequestRow row x y d q e l) :
    ServesRow row (serviceOf row) := by
  obtain ⟨id, rest, rfl⟩ := h.shape
  exact ⟨x, y, d, q, e, l, h, rfl, rfl, rfl, rfl⟩

theorem rowService_run {row : List ℚ} {x y d q e l : ℚ} (h : RequestRow row x y d q e l) (s : SurfaceState D) :
    ∃ s', rowService row s = (.ok (serviceOf row), s') ∧ AddsPositions s s' [(serviceOf row).position] := by
  obtain ⟨id, rest, rfl⟩ := h.shape
  obtain ⟨s', e1, a1⟩ := getOrCreatePosition_run (D := D) [x, y] s
  refine ⟨s', ?_, a1⟩
  unfold rowService
  rw [Py.bind_ok (show getOrCreatePosition (rowPosition (id :: x :: y :: d :: q :: e :: l :: rest)) s = (.ok [x, y], s') from e1)]
  rfl

/-- The trip of request `k`. -/
def cordeauTripOf (data : Rows) (L : ℚ) (n k : Nat) : LoadedTrip :=
  { identifier := decimal (k + 1),
    trip := { origin := serviceOf (data.getD (k + 2) []), destination := serviceOf (data.getD (k + 2 + n) []),
              capacity := (data.getD (k + 2) []).getD 4 0, timeout := .fin L } }

theorem cordeauTrip_run {data : Rows} {m n : Nat} {T Q L dx dy : ℚ} (hd : CordeauData data m n T Q L dx dy) {k : Nat}
    (hk : k < n) (s : SurfaceState D) :
    ∃ s', cordeauTrip data k n s = (.ok (cordeauTripOf data L n k), s') ∧
      AddsPositions s s' (cordeauTripOf data L n k).trip.positions := by
  obtain ⟨row, x, y, d, q, e, l, h1, r1⟩ := hd.requests k (by omega)
  obtain ⟨row', x', y', d', q', e', l', h2, r2⟩ := hd.requests (k + n) (by omega)
  rw [show k + n + 2 = k + 2 + n by omega] at h2
  obtain ⟨c, rest, hh, _, _⟩ := hd.header
  obtain ⟨s1, e1, a1⟩ := rowService_run (D := D) r1 s
  obtain ⟨s2, e2, a2⟩ := rowService_run (D := D) r2 s1
  have hq : q = -q' := hd.loads k hk row row' q q' h1 h2 ⟨_, _, _, _, _, r1⟩ ⟨_, _, _, _, _, r2⟩
  have g1 : data.getD (k + 2) [] = row := by simp [List.getD_eq_getElem?_getD, h1]
  have g2 : data.getD (k + 2 + n) [] = row' := by simp [List.getD_eq_getElem?_getD, h2]
  refine ⟨s2, ?_, ?_⟩
  · unfold cordeauTrip cordeauTripOf
    rw [Py.bind_ok (index_run h1 s), Py.bind_ok e1, Py.bind_ok (index_run h2 s1), Py.bind_ok e2]
    obtain ⟨id, rest1, hs1⟩ := r1.shape
    obtain ⟨id', rest2, hs2⟩ := r2.shape
    rw [Py.bind_ok (index_run (a := q) (by rw [hs1]; rfl) s2), Py.bind_ok (index_run (a := q') (by rw [hs2]; rfl) s2)]
    rw [decide_eq_true hq, Py.bind_ok (Py.assert_true s2), Py.bind_ok (index_run hh s2),
      Py.bind_ok (index_run (a := L) rfl s2), g1, g2]
    have : row.getD 4 0 = q := by rw [hs1]; rfl
    rw [this]
    rfl
  · unfold cordeauTripOf Trip.positions
    rw [g1, g2]
    exact a1.trans a2

theorem pyInt_natCast (n : Nat) : pyInt (n : ℚ) = n := by
  simp [pyInt]

theorem half_floor {c : ℚ} {n : Nat} (h1 : (2 * n : ℚ) ≤ c) (h2 : c < 2 * n + 2) : (pyInt (c / 2).floor).toNat = n := by
  have : (c / 2).floor = (n : Int) := by
    change ⌊c / 2⌋ = (n : Int)
    rw [Int.floor_eq_iff]
    constructor
    · push_cast; linarith
    · push_cast; linarith
  rw [this]
  simp [pyInt]

theorem cordeauJob_run {data : Rows} {m n : Nat} {T Q L dx dy : ℚ} (hd : CordeauData data m n T Q L dx dy)
    (s : SurfaceState D) :
    ∃ s', cordeauJob data s = (.ok ((List.range n).map (cordeauTripOf data L n)), s') ∧
      AddsPositions s s' (((List.range n).map (cordeauTripOf data L n)).flatMap fun t => t.trip.positions) := by
  obtain ⟨c, rest, hh, h1, h2⟩ := hd.header
  obtain ⟨s', e, a⟩ := mapEach_adds (l := List.range n) (f := fun k => cordeauTrip data k n)
    (g := cordeauTripOf data L n) (ps := fun t => t.trip.positions)
    (fun k hk s => cordeauTrip_run hd (List.mem_range.1 hk) s) s
  refine ⟨s', ?_, a⟩
  unfold cordeauJob
  rw [Py.bind_ok (index_run hh s), Py.bind_ok (index_run (a := c) rfl s)]
  simp only [half_floor h1 h2]
  exact e

/-- The vehicle number `k`. -/
def cordeauVehicleOf (T Q dx dy : ℚ) (k : Nat) : LoadedVehicle :=
  { identifier := decimal k,
    vehicle := { origin := { position := [dx, dy] }, capacity := Q, timeout := .fin T } }

theorem cordeauFleet_run {data : Rows} {m n : Nat} {T Q L dx dy : ℚ} (hd : CordeauData data m n T Q L dx dy)
    (s : SurfaceState D) :
    ∃ s', cordeauFleet data s = (.ok ((List.range m).map (cordeauVehicleOf T Q dx dy)), s') ∧
      AddsPositions s s' [[dx, dy]] := by
  obtain ⟨c, rest, hh, _, _⟩ := hd.header
  obtain ⟨id, rest', hp⟩ := hd.depot
  obtain ⟨s', e, a⟩ := getOrCreatePosition_run (D := D) [dx, dy] s
  refine ⟨s', ?_, a⟩
  unfold cordeauFleet
  rw [Py.bind_ok (index_run hh s), Py.bind_ok (index_run (a := (m : ℚ)) rfl s), Py.bind_ok (index_run hp s),
    Py.bind_ok (show getOrCreatePosition (rowPosition (id :: dx :: dy :: rest')) s = (.ok [dx, dy], s') from e)]
  simp only [pyInt_natCast, Int.toNat_natCast]
  rfl

/-- The trip of ride `k`. -/
def hashcodeTripOf (data : Rows) (b : ℚ) (k : Nat) : LoadedTrip :=
  let row := data.getD (k + 1) []
  { identifier := decimal k,
    trip := { origin := { position := [row.getD 0 0, row.getD 1 0], earliest := row.getD 4 0, latest := .fin (row.getD 5 0) },
              destination := { position := [row.getD 2 0, row.getD 3 0] }, onTimeBonus := b } }

theorem hashcodeTrip_run {row : List ℚ} {x1 y1 x2 y2 e l : ℚ} (h : RideRow row x1 y1 x2 y2 e l) (k : Nat) (b : ℚ)
    (s : SurfaceState D) : ∃ t s', hashcodeTrip k b row s = (.ok t, s') ∧
      t = { identifier := decimal k,
            trip := { origin := { position := [x1, y1], earliest := e, latest := .fin l },
                      destination := { position := [x2, y2] }, onTimeBonus := b } } ∧
      AddsPositions s s' t.trip.positions := by
  obtain ⟨s1, e1, a1⟩ := getOrCreatePosition_run (D := D) [x1, y1] s
  obtain ⟨s2, e2, a2⟩ := getOrCreatePosition_run (D := D) [x2, y2] s1
  refine ⟨_, s2, ?_, rfl, a1.trans a2⟩
  rw [h.shape]
  unfold hashcodeTrip
  simp only
  rw [Py.bind_ok e1, Py.bind_ok e2]
  rfl

theorem hashcodeJob_run {data : Rows} {f n : Nat} {b T : ℚ} (hd : HashCodeData data f n b T) (s : SurfaceState D) :
    ∃ s', hashcodeJob data s = (.ok ((List.range n).map (hashcodeTripOf data b)), s') ∧
      AddsPositions s s' (((List.range n).map (hashcodeTripOf data b)).flatMap fun t => t.trip.positions) := by
  obtain ⟨r, c, count, rest, hh⟩ := hd.header
  have hz : (data.drop 1).zipIdx = (List.range n).map fun k => (data.getD (k + 1) [], k) := by
    apply List.ext_getElem
    · simp [hd.length]
    · intro i h1 h2
      simp only [List.length_map, List.length_range] at h2
      have : i + 1 < data.length := by rw [hd.length]; omega
      simp [List.getD_eq_getElem?_getD, List.getElem?_eq_getElem this]
  obtain ⟨s', e, a⟩ := mapEach_adds (l := (data.drop 1).zipIdx) (f := fun p => hashcodeTrip p.2 b p.1)
    (g := fun p => hashcodeTripOf data b p.2) (ps := fun t => t.trip.positions)
    (by
      intro p hp s
      rw [hz] at hp
      obtain ⟨k, hk, rfl⟩ := List.mem_map.1 hp
      obtain ⟨row, x1, y1, x2, y2, e, l, hr, hrow⟩ := hd.rides k (List.mem_range.1 hk)
      obtain ⟨t, s', h1, h2, h3⟩ := hashcodeTrip_run (D := D) hrow k b s
      have hg : data.getD (k + 1) [] = row := by simp [List.getD_eq_getElem?_getD, hr]
      have ht : t = hashcodeTripOf data b k := by
        rw [h2]
        unfold hashcodeTripOf
        simp only [hg]
        rw [hrow.shape]
        rfl
      exact ⟨s', by simp only [hg, h1, ht], ht ▸ h3⟩) s
  have hm : (data.drop 1).zipIdx.map (fun p => hashcodeTripOf data b p.2) = (List.range n).map (hashcodeTripOf data b) := by
    rw [hz, List.map_map]; rfl
  rw [hm] at e a
  refine ⟨s', ?_, a⟩
  unfold hashcodeJob
  rw [Py.bind_ok (index_run hh s), Py.bind_ok (index_run (a := b) rfl s)]
  exact e

theorem hashcodeFleet_run {data : Rows} {f n : Nat} {b T : ℚ} (hd : HashCodeData data f n b T) (s : SurfaceState D) :
    ∃ s', hashcodeFleet data s = (.ok ((List.range f).map fun k =>
        { identifier := decimal k,
          vehicle := { origin := { position := [0, 0], latest := .fin T }, capacity := 1 } }), s') ∧
      AddsPositions s s' [[0, 0]] := by
  obtain ⟨r, c, count, rest, hh⟩ := hd.header
  obtain ⟨s', e, a⟩ := getOrCreatePosition_run (D := D) [0, 0] s
  refine ⟨s', ?_, a⟩
  unfold hashcodeFleet
  rw [Py.bind_ok (index_run hh s), Py.bind_ok (index_run (a := (f : ℚ)) rfl s), Py.bind_ok (index_run (a := T) rfl s),
    Py.bind_ok e]
  simp only [pyInt_natCast, Int.toNat_natCast]
  rfl

end Jinete
