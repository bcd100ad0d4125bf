import Verif.Props.SameTrips

/-!
# C144: With enough vehicles of a kind, inserting again inserts nothing
-/

set_option autoImplicit false

namespace Jinete

variable {E : Env} {fleet job : List Nat}

theorem Grown.same_or_more {ds ds' : List Duty} (g : Grown E ds ds') :
    ds' = ds ∨ (ds.flatMap Duty.picks).length < (ds'.flatMap Duty.picks).length := by
  induction g with
  | refl => exact .inl rfl
  | @insert ds' t i j g hij hj ih =>
    right
    have := (withTrip_picks E (t := t) (l := ds') hij).length_eq
    rw [List.length_cons] at this
    rcases ih with rfl | ih <;> omega

/-- The result of a thorough run, for further stages. -/
theorem ThoroughRun.inv (hE : EnvOK E) (hf : fleet ≠ []) (hfn : fleet.Nodup) (hjn : job.Nodup) (hx : ∀ t, (E.trip t).timeout = .inf)
    {h h' : Heap} {l : List Nat} (nd : NoDangling h.core) (run : ThoroughRun E fleet job h l h') :
    NoDangling h'.core ∧ PlanInv E fleet job (fun _ => True) (fun v ds => True → Proper E v ds) .exact h' l := by
  have F : RunSetting E fleet job (fun _ => True) (fun v ds => True → Proper E v ds) .exact := ⟨hE, fun _ => hx, hf, hfn, fun _ _ _ _ => trivial, proper_movable _⟩
  have G : InsertSetting E fleet job (fun _ => True) (fun v ds => True → Proper E v ds) := ⟨hjn, fun _ _ _ => trivial, fun v _ _ => proper_idle v⟩
  cases run with
  | insertion k S fuel hS hst hsz ho e =>
    have := (insertionOptimize_safe (k := k) (c0 := h.core) (rs0 := []) (fuel := fuel) (X := fun _ => True) (initial := none) F G hS (fun _ _ => trivial)
      (s := h) ⟨nd, by simp [RoutesKept]⟩ (fun _ e => nomatch e)).ok e
    exact ⟨this.1.1.1, this.2⟩
  | grasp k D S threshold fuel seeds draw draw' episodes firstEpisodes hD hS hst hsz ho he hfe e =>
    have := (graspOptimize_safe (k := k) (c0 := h.core) (rs0 := []) (threshold := threshold) (fuel := fuel) (seeds := seeds) (draw := draw) (draw' := draw')
      F G hD hS ⟨nd, .self (by simp)⟩ he hfe).ok e
    exact ⟨this.1.1.1, this.2⟩

/-- **C144.** The conditions of `C141_served_iff_partial`; insertion with any settings, starting from the result, inserts nothing: the routes of what it returns have the vehicles and
visits of the routes it was given. -/
theorem C144_nothing_left_partial (hE : EnvOK E) (hf : fleet ≠ []) (hfn : fleet.Nodup) (hjn : job.Nodup) (hx : ∀ t, (E.trip t).timeout = .inf)
    (hlim : ∀ v, (E.vehicle v).timeout = .inf) (halike : ∀ v ∈ fleet, ∀ w ∈ fleet, E.vehicle v = E.vehicle w) (hmany : job.length ≤ fleet.length)
    (tri : NoShortcut E (places E fleet job)) {h h' : Heap} {l : List Nat} (nd : NoDangling h.core) (run : ThoroughRun E fleet job h l h')
    {S : Heap → Settings} (hS : ∀ h, (S h).Of E fleet job) {k : Objective} {fuel : Nat} {l2 : List Nat} {h2 : Heap}
    (e : insertionOptimize E k S fuel (some l) h' = (.ok l2, h2)) :
    ∃ ρ : Nat → Nat, l.Perm (l2.map ρ) ∧ ∀ q ∈ l2, (h'.core.route (ρ q)).vehicle = (h2.core.route q).vehicle ∧ duties h2.core q = duties h'.core (ρ q) := by
  obtain ⟨nd', p⟩ := run.inv hE hf hfn hjn hx nd
  obtain ⟨s1, e, hl⟩ := logged_ok e
  have e : insertionPlanning (S h') (some l) fuel h' = (.ok l2, s1) := e
  rcases insertionPlanning_run (md := .exact) (W := fun _ => True) (K := fun v ds => True → Proper E v ds) (k := k) (c0 := h'.core) (rs0 := []) hE
    (fun _ => hx) hfn hjn (fun _ _ _ => trivial) (proper_movable _) (fun v _ _ => proper_idle v) (hS h') ⟨nd', by simp [RoutesKept]⟩
    (initial := some l) (by rintro _ ⟨⟩; exact p) fuel with ⟨l', h1, e1, _, p2, g⟩ | ⟨er, h1, e1, _⟩
  · rw [e] at e1
    cases e1
    obtain ⟨h3, e3, hc⟩ := logResult_run (k := k) hE hf p2
    rw [hl] at e3
    cases e3
    have hc := hc.core
    obtain ⟨ρ, hp, hq⟩ := (g l rfl).pairing p.vehicles p2.vehicles hfn
    rw [hc]
    refine ⟨ρ, hp, fun q hql => ⟨(hq q hql).1, ?_⟩⟩
    rcases (hq q hql).2.same_or_more with h0 | h0
    · exact h0
    · exfalso
      have good : GoodPlan E fleet job s1 l2 :=
        ⟨p2.forProblem, fun r hr => p2.kept r hr trivial, p2.loosely (fun h => nomatch h), fun _ hv => p2.feasibly hv⟩
      have sub : ∀ t ∈ l2.flatMap (tripsOf s1.core), t ∈ l.flatMap (tripsOf h'.core) := by
        intro t ht
        rw [C141_served_iff_partial hE hf hfn hjn hx hlim halike hmany tri nd run t]
        obtain ⟨r, hr, htr⟩ := List.mem_flatMap.1 ht
        exact ⟨_, C141_no_others hE hx hlim tri good hr htr⟩
      have h1 := (p2.trips.subperm sub).length_le
      have h2 : (l.flatMap (tripsOf h'.core)).length = (l2.flatMap fun q => tripsOf h'.core (ρ q)).length := by
        rw [(hp.flatMap_right _).length_eq, List.flatMap_map]
      rw [h2, List.length_flatMap, List.length_flatMap] at h1
      refine absurd h1 (not_le.2 ?_)
      refine List.sum_lt_sum _ _ (fun q hq' => ?_) ⟨q, hql, ?_⟩
      · rw [picks_duties, picks_duties]
        rcases (hq q hq').2.same_or_more with h0 | h0
        · rw [h0]
        · exact h0.le
      · rw [picks_duties, picks_duties]
        exact h0
  · rw [e] at e1
    cases e1

/-! ## Otherwise -/

/-- The full claim: insertion that starts from the result of insertion serves no more trips. -/
def InsertionSettles (E : Env) (fleet job : List Nat) : Prop :=
  ∀ (S S' : Heap → Settings) (k : Objective) (fuel : Nat) (h : Heap) (l l2 : List Nat) (h1 h2 : Heap), (∀ h, (S h).Of E fleet job) → (∀ h, (S' h).Of E fleet job) →
    NoDangling h.core → insertionOptimize E k S fuel none h = (.ok l, h1) → insertionOptimize E k S' fuel (some l) h1 = (.ok l2, h2) →
    (l2.flatMap (tripsOf h2.core)).length ≤ (l.flatMap (tripsOf h1.core)).length

/-- The settings of `smallEnv`, with the first set iterated in the other order. -/
def smallBackwards : Settings := { plainSettings smallEnv [0, 1] [0] .intensive 1 with order := fun k l => if k = 0 then l.reverse else l }

/-- Insertion twice, the second time with the given routes iterated in the other order: how many trips are served after each. -/
def smallTwice : Except Err (Nat × Nat) :=
  ((do
    let l ← insertionOptimize smallEnv .dialARide (fun _ => plainSettings smallEnv [0, 1] [0] .intensive 1) 2 none
    let h ← Py.read
    let l2 ← insertionOptimize smallEnv .dialARide (fun _ => smallBackwards) 2 (some l)
    let h2 ← Py.read
    pure ((l.flatMap (tripsOf h.core)).length, (l2.flatMap (tripsOf h2.core)).length) : M (Nat × Nat)) .empty).1

theorem smallTwice_eq : smallTwice = .ok (0, 1) := by decide +kernel

/-- **C144, the other vehicle is tried.** Insertion leaves the only trip out, since the vehicle tried is too small; insertion that starts from this result may try the other one,
and serves it. -/
theorem C144_other_vehicle_tried : ¬ InsertionSettles smallEnv [0, 1] [0] := by
  intro hp
  have h0 := smallTwice_eq
  unfold smallTwice at h0
  rcases e1 : insertionOptimize smallEnv .dialARide (fun _ => plainSettings smallEnv [0, 1] [0] .intensive 1) 2 none .empty with ⟨er | l, h1⟩
  · rw [Py.bind_error e1] at h0
    cases h0
  · rw [Py.bind_ok e1, Py.read_bind] at h0
    rcases e2 : insertionOptimize smallEnv .dialARide (fun _ => smallBackwards) 2 (some l) h1 with ⟨er | l2, h2⟩
    · rw [Py.bind_error e2] at h0
      cases h0
    · rw [Py.bind_ok e2, Py.read_bind] at h0
      have h3 : ((l.flatMap (tripsOf h1.core)).length, (l2.flatMap (tripsOf h2.core)).length) = (0, 1) := Except.ok.inj h0
      have := hp (fun _ => plainSettings smallEnv [0, 1] [0] .intensive 1) (fun _ => smallBackwards) .dialARide 2 .empty l l2 h1 h2
        (fun _ => ⟨rfl, rfl, rfl, plainSettings_fair _ _ _ _, Nat.one_pos⟩)
        (fun _ => ⟨rfl, rfl, rfl, ⟨fun k l => by
          show (if k = 0 then l.reverse else l).Perm l
          split_ifs <;> [exact l.reverse_perm; exact .refl _], fun _ _ h => h, fun _ _ _ h => nomatch h⟩, Nat.one_pos⟩) empty_noDangling e1 e2
      rw [Prod.mk.injEq] at h3
      omega

/-! ## Cases -/

/-- Insertion, GRASP or anything that considers all positions for three vehicles of a kind and three trips of which one is out of reach: inserting once more, with any
criterion, size of neighbourhood and draws, changes no visit. -/
example {l : List Nat} {h : Heap} (run : ThoroughRun awayEnv [0, 1, 2] [0, 1, 2] .empty l h) (k : Criterion) (n : Nat) (hn : 0 < n) {fuel : Nat} {l2 : List Nat} {h2 : Heap}
    (e : insertionOptimize awayEnv .hashCode (fun _ => { awaySettings with criterion := k, neighborhood := some n, randomized := n }) fuel (some l) h = (.ok l2, h2)) :
    ∃ ρ : Nat → Nat, l.Perm (l2.map ρ) ∧ ∀ q ∈ l2, (h.core.route (ρ q)).vehicle = (h2.core.route q).vehicle ∧ duties h2.core q = duties h.core (ρ q) :=
  C144_nothing_left_partial (fleet := [0, 1, 2]) (job := [0, 1, 2]) awayEnv_ok (by simp) (by decide) (by decide)
    (by intro t; simp only [awayEnv, demoEnv]; split <;> [rfl; (split <;> rfl)]) (fun _ => rfl) (fun _ _ _ _ => rfl) (by decide) away_noShortcut
    empty_noDangling run (fun _ => ⟨rfl, rfl, rfl, ⟨fun _ l => List.Perm.refl l, fun _ _ h => h, by intro _ _ _ h; cases h⟩, hn⟩) e

end Jinete
