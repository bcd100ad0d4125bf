import Verif.Model.Trip
import Verif.Model.Surface
import Verif.Proofs.Bound

/-!
# C04, C05: effective windows of a trip
-/

set_option autoImplicit false

namespace Jinete

/-- Specification: `x` lies in the window `[lo, hi]`. -/
def InWindow (x lo : ℚ) (hi : Bound) : Prop := lo ≤ x ∧ hi.leQ x = true

/-- Specification: the window declared on a service. -/
def InDeclared (x : ℚ) (s : Service) : Prop := InWindow x s.earliest s.latest

/-- **C04.** A start time inside the effective pickup (delivery) window of a trip is inside the window
declared on its origin (destination) service. -/
theorem C04_windows_tighten (metric : Pos → Pos → ℚ) (t : Trip) (x : ℚ) :
    (InWindow x t.originEarliest (t.originLatest metric) → InDeclared x t.origin) ∧
    (InWindow x (t.destinationEarliest metric) t.destinationLatest → InDeclared x t.destination) := by
  refine ⟨fun ⟨h1, h2⟩ => ⟨?_, ?_⟩, fun ⟨h1, h2⟩ => ⟨?_, ?_⟩⟩
  · unfold Trip.originEarliest at h1
    split at h1
    · exact le_trans (le_max_right _ _) h1
    · exact h1
  · exact ((Bound.leQ_min _ _ _).1 h2).2
  · exact le_trans (le_max_right _ _) h1
  · exact ((Bound.leQ_min _ _ _).1 h2).2

/-- Sample trip used in the examples: both windows declared, ride time at most 30, loading 5 and 5. -/
def sampleTrip : Trip where
  origin := { position := [0], earliest := 10, latest := .fin 50, duration := 5 }
  destination := { position := [20], earliest := 60, latest := .fin 70, duration := 5 }
  timeout := .fin 30

/-- C04 is not vacuous, and the effective window is strictly smaller than the declared one. -/
example : InWindow 30 sampleTrip.originEarliest (sampleTrip.originLatest fun _ _ => 20) ∧
    InDeclared 20 sampleTrip.origin ∧
    ¬ InWindow 20 sampleTrip.originEarliest (sampleTrip.originLatest fun _ _ => 20) := by
  unfold InWindow InDeclared InWindow; decide +kernel

/-- Specification of an admissible service of a trip: the pickup service starts at `p`, the delivery
service at `d`, both inside their declared windows; the vehicle needs the loading time at the origin
plus the direct travel time in between; the ride (from the end of loading to the start of the delivery,
as measured by `PlannedTrip.duration`) respects the timeout. -/
structure Admissible (metric : Pos → Pos → ℚ) (t : Trip) (p d : ℚ) : Prop where
  origin : InDeclared p t.origin
  destination : InDeclared d t.destination
  travel : p + t.origin.duration + metric t.origin.position t.destination.position ≤ d
  ride : t.timeout.leQ (d - (p + t.origin.duration)) = true

/-- The full claim C05: no admissible service is lost by the effective windows. -/
def TighteningLossless : Prop :=
  ∀ (metric : Pos → Pos → ℚ) (t : Trip) (p d : ℚ), Admissible metric t p d →
    InWindow p t.originEarliest (t.originLatest metric) ∧
    InWindow d (t.destinationEarliest metric) t.destinationLatest

/-- A trip whose delivery takes longer to serve than its pickup. -/
def lossyTrip : Trip where
  origin := { position := [0], earliest := 0, latest := .fin 100, duration := 0 }
  destination := { position := [10], earliest := 0, latest := .fin 100, duration := 5 }

/-- **C05 fails for the code**: `origin_latest` subtracts the *destination* loading time, so a pickup at
90 with delivery start at 100 (both inside the declared windows, travel time 10) is rejected. -/
theorem C05_not_lossless : ¬ TighteningLossless := by
  intro h
  have := h manhattan lossyTrip 90 100
    ⟨by unfold InDeclared InWindow; decide +kernel, by unfold InDeclared InWindow; decide +kernel,
     by decide +kernel, by decide +kernel⟩
  revert this
  unfold InWindow
  decide +kernel

/-- A trip whose pickup takes longer to serve than its delivery. -/
def lossyTrip2 : Trip where
  origin := { position := [0], earliest := 0, latest := .fin 100, duration := 5 }
  destination := { position := [0], earliest := 50, latest := .fin 100, duration := 0 }
  timeout := .fin 10

/-- The lower end is affected in the opposite case: `origin_earliest` uses the destination loading time,
so with a longer loading time at the origin an admissible early pickup (at 35, leaving at 40, delivered
at 50 after the maximal ride of 10) is rejected. -/
theorem C05_not_lossless_earliest :
    Admissible (fun _ _ => 0) lossyTrip2 35 50 ∧
    ¬ InWindow 35 lossyTrip2.originEarliest (lossyTrip2.originLatest fun _ _ => 0) := by
  refine ⟨⟨?_, ?_, ?_, ?_⟩, ?_⟩
  · unfold InDeclared InWindow; decide +kernel
  · unfold InDeclared InWindow; decide +kernel
  · decide +kernel
  · decide +kernel
  · unfold InWindow; decide +kernel

/-- **C05, the part that holds.** The effective delivery window loses nothing; the lower end of the
pickup window loses nothing when the origin loading time is at most the destination loading time (or the
trip has no timeout), the upper end when it is at least. In particular nothing is lost when both loading
times are equal. Missing with respect to C05: trips with different loading times. -/
theorem C05_lossless_partial (metric : Pos → Pos → ℚ) (t : Trip) (p d : ℚ) (h : Admissible metric t p d) :
    InWindow d (t.destinationEarliest metric) t.destinationLatest ∧
    ((t.origin.duration ≤ t.destination.duration ∨ t.timeout = .inf) → t.originEarliest ≤ p) ∧
    (t.destination.duration ≤ t.origin.duration → (t.originLatest metric).leQ p = true) := by
  obtain ⟨⟨o1, o2⟩, ⟨d1, d2⟩, tr, ri⟩ := h
  refine ⟨⟨?_, ?_⟩, ?_, ?_⟩
  · exact max_le (by unfold Trip.directTime; linarith) d1
  · refine (Bound.leQ_min _ _ _).2 ⟨?_, d2⟩
    cases hto : t.timeout with
    | inf => cases t.origin.latest <;> simp [Bound.addQ, Bound.add]
    | fin q =>
      cases hol : t.origin.latest with
      | inf => simp [Bound.addQ, Bound.add]
      | fin l =>
        rw [hto] at ri; rw [hol] at o2
        simp only [Bound.leQ_fin] at ri o2
        simp only [Bound.addQ, Bound.add, Bound.leQ_fin]
        linarith
  · intro hd
    unfold Trip.originEarliest
    split
    · rename_i q hq
      rw [hq] at ri
      simp only [Bound.leQ_fin] at ri
      apply max_le _ o1
      rcases hd with hd | hd
      · linarith
      · rw [hq] at hd; cases hd
    · exact o1
  · intro hd
    refine (Bound.leQ_min _ _ _).2 ⟨?_, o2⟩
    rw [Bound.leQ_subQ, Bound.leQ_subQ]
    exact Bound.leQ_mono (by unfold Trip.directTime; linarith) d2

/-- The hypotheses of `C05_lossless_partial` are met with equal loading times. -/
example : Admissible (fun _ _ => 20) sampleTrip 30 60 ∧
    sampleTrip.origin.duration = sampleTrip.destination.duration := by
  refine ⟨⟨?_, ?_, ?_, ?_⟩, rfl⟩
  · unfold InDeclared InWindow; decide +kernel
  · unfold InDeclared InWindow; decide +kernel
  · decide +kernel
  · decide +kernel

/-- Specification: services near the closing of the destination are lost, since it takes longer to leave than to board, and the
origin is still open then. -/
def LosesLate (metric : Pos → Pos → ℚ) (t : Trip) : Prop :=
  t.origin.duration < t.destination.duration ∧ ∃ l, t.destination.latest = .fin l ∧
    t.origin.latest.leQ (l - t.destination.duration - metric t.origin.position t.destination.position) = true ∧
    t.origin.latest ≠ .fin (l - t.destination.duration - metric t.origin.position t.destination.position)

/-- Specification: services near the opening of the destination are lost, since it takes longer to board than to leave, there is
a maximum ride time, and the origin is already open then. -/
def LosesEarly (t : Trip) : Prop :=
  t.destination.duration < t.origin.duration ∧ ∃ q, t.timeout = .fin q ∧
    t.origin.earliest < t.destination.earliest - t.destination.duration - q

/-- **C05, exactly.** For a trip that can be served at all, the effective windows lose no admissible service if and only if neither
the latest nor the earliest ones are lost. -/
theorem C05_lossless_iff (metric : Pos → Pos → ℚ) (t : Trip) {p₀ d₀ : ℚ} (h₀ : Admissible metric t p₀ d₀) :
    (∀ p d, Admissible metric t p d → InWindow p t.originEarliest (t.originLatest metric) ∧
      InWindow d (t.destinationEarliest metric) t.destinationLatest) ↔ ¬ LosesLate metric t ∧ ¬ LosesEarly t := by
  obtain ⟨⟨o1, o2⟩, ⟨d1, d2⟩, tr, ri⟩ := h₀
  constructor
  · intro hall
    refine ⟨?_, ?_⟩
    · rintro ⟨hlt, l, hl, hop, hne⟩
      rw [hl, Bound.leQ_fin] at d2
      -- serve as late as possible
      have key : ∀ p : ℚ, p₀ ≤ p → t.origin.latest.leQ p = true →
          p + t.origin.duration + metric t.origin.position t.destination.position ≤ l →
          l - t.destination.duration - metric t.origin.position t.destination.position < p → False := by
        intro p hp hop' htr hlate
        have ha : Admissible metric t p
            (max t.destination.earliest (p + t.origin.duration + metric t.origin.position t.destination.position)) := by
          refine ⟨⟨by linarith, hop'⟩, ⟨le_max_left _ _, ?_⟩, le_max_right _ _, ?_⟩
          · rw [hl, Bound.leQ_fin]; exact max_le (by linarith) htr
          · cases hq : t.timeout with
            | inf => rfl
            | fin q =>
              rw [hq, Bound.leQ_fin] at ri
              rw [Bound.leQ_fin, sub_le_iff_le_add]
              exact max_le (by linarith) (by linarith)
        have hw := ((Bound.leQ_min _ _ _).1 (hall _ _ ha).1.2).1
        rw [hl, Bound.leQ_subQ, Bound.leQ_subQ, Bound.leQ_fin] at hw
        unfold Trip.directTime at hw
        linarith
      cases hol : t.origin.latest with
      | inf =>
        refine key (l - t.origin.duration - metric t.origin.position t.destination.position) (by linarith) (by rw [hol]; rfl)
          (by linarith) (by linarith)
      | fin m =>
        rw [hol] at hop hne o2
        rw [Bound.leQ_fin] at hop o2
        have hm : l - t.destination.duration - metric t.origin.position t.destination.position < m :=
          lt_of_le_of_ne hop fun e => hne (by rw [e])
        refine key (min m (l - t.origin.duration - metric t.origin.position t.destination.position)) (le_min o2 (by linarith))
          (by rw [hol, Bound.leQ_fin]; exact min_le_left _ _) ?_ (lt_min hm (by linarith))
        have := min_le_right m (l - t.origin.duration - metric t.origin.position t.destination.position)
        linarith
    · rintro ⟨hlt, q, hq, hop⟩
      rw [hq, Bound.leQ_fin] at ri
      -- serve as early as possible
      have hp : max t.origin.earliest (t.destination.earliest - t.origin.duration - q) ≤ p₀ := max_le o1 (by linarith)
      have ha : Admissible metric t (max t.origin.earliest (t.destination.earliest - t.origin.duration - q))
          (max t.destination.earliest (max t.origin.earliest (t.destination.earliest - t.origin.duration - q) + t.origin.duration +
            metric t.origin.position t.destination.position)) := by
        refine ⟨⟨le_max_left _ _, Bound.leQ_mono hp o2⟩, ⟨le_max_left _ _, ?_⟩, le_max_right _ _, ?_⟩
        · exact Bound.leQ_mono (max_le d1 (by linarith)) d2
        · rw [hq, Bound.leQ_fin, sub_le_iff_le_add]
          have := le_max_right t.origin.earliest (t.destination.earliest - t.origin.duration - q)
          exact max_le (by linarith) (by linarith)
      have hw := (hall _ _ ha).1.1
      unfold Trip.originEarliest at hw
      rw [hq] at hw
      have h1 := le_trans (le_max_left _ _) hw
      have h2 : max t.origin.earliest (t.destination.earliest - t.origin.duration - q) < t.destination.earliest - t.destination.duration - q :=
        max_lt hop (by linarith)
      linarith
  · rintro ⟨hlate, hearly⟩ p d ha
    obtain ⟨hd, _, _⟩ := C05_lossless_partial metric t p d ha
    obtain ⟨⟨p1, p2⟩, ⟨e1, e2⟩, tr', ri'⟩ := ha
    refine ⟨⟨?_, ?_⟩, hd⟩
    · unfold Trip.originEarliest
      split
      · rename_i q hq
        rw [hq, Bound.leQ_fin] at ri'
        refine max_le ?_ p1
        by_contra hc
        refine hearly ⟨?_, q, hq, by linarith⟩
        by_contra hn
        linarith
      · exact p1
    · refine (Bound.leQ_min _ _ _).2 ⟨?_, p2⟩
      rw [Bound.leQ_subQ, Bound.leQ_subQ]
      unfold Trip.directTime
      cases hl : t.destination.latest with
      | inf => rfl
      | fin l =>
        rw [hl, Bound.leQ_fin] at e2
        rw [Bound.leQ_fin]
        by_contra hc
        refine hlate ⟨?_, l, hl, ?_, ?_⟩
        · by_contra hn
          linarith
        · exact Bound.leQ_mono (by linarith) p2
        · intro he
          rw [he, Bound.leQ_fin] at p2
          linarith

/-- The two witnesses lose services in these two ways; `sampleTrip`, which can be served, loses none. -/
example : LosesLate manhattan lossyTrip ∧ ¬ LosesEarly lossyTrip ∧ LosesEarly lossyTrip2 ∧ ¬ LosesLate (fun _ _ => 0) lossyTrip2 ∧
    ¬ LosesLate (fun _ _ => 20) sampleTrip ∧ ¬ LosesEarly sampleTrip :=
  ⟨⟨by decide +kernel, 100, rfl, by decide +kernel, by decide +kernel⟩, fun h => absurd h.1 (by decide +kernel),
    ⟨by decide +kernel, 10, rfl, by decide +kernel⟩, fun h => absurd h.1 (by decide +kernel), fun h => absurd h.1 (by decide +kernel),
    fun h => absurd h.1 (by decide +kernel)⟩

end Jinete
