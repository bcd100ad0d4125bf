import Verif.Props.SameTrips

/-!
# C145: Further trips in the job
-/

set_option autoImplicit false

namespace Jinete

variable {E : Env} {fleet fleet' job job' : List Nat}

/-- **C145.** Two jobs, the first part of the second; two fleets of vehicles of the same kind, each with at least as many vehicles as its job has trips; no detour that saves
time and nothing that limits rides and tours. The trips served of the first job are exactly those of its trips that are served with the second: no trip is lost to a further one. -/
theorem C145_further_trips_partial (hE : EnvOK E) (hf : fleet ≠ []) (hfn : fleet.Nodup) (hf' : fleet' ≠ []) (hfn' : fleet'.Nodup) (hjn : job.Nodup) (hjn' : job'.Nodup)
    (hsub : ∀ t ∈ job, t ∈ job') (hx : ∀ t, (E.trip t).timeout = .inf) (hlim : ∀ v, (E.vehicle v).timeout = .inf)
    (halike : ∀ v ∈ fleet ++ fleet', ∀ w ∈ fleet ++ fleet', E.vehicle v = E.vehicle w) (hmany : job.length ≤ fleet.length) (hmany' : job'.length ≤ fleet'.length)
    (tri : NoShortcut E (places E (fleet ++ fleet') job')) {h h1 h2 h3 : Heap} {l l' : List Nat} (nd : NoDangling h.core) (run : ThoroughRun E fleet job h l h1)
    (nd' : NoDangling h2.core) (run' : ThoroughRun E fleet' job' h2 l' h3) (t : Nat) :
    t ∈ l.flatMap (tripsOf h1.core) ↔ t ∈ job ∧ t ∈ l'.flatMap (tripsOf h3.core) := by
  have left : ∀ {v}, v ∈ fleet → v ∈ fleet ++ fleet' := fun h => List.mem_append.2 (.inl h)
  have right : ∀ {v}, v ∈ fleet' → v ∈ fleet ++ fleet' := fun h => List.mem_append.2 (.inr h)
  obtain ⟨v0, hv0⟩ := List.exists_mem_of_ne_nil _ hf
  obtain ⟨w0, hw0⟩ := List.exists_mem_of_ne_nil _ hf'
  have sub : ∀ {f j}, (∀ v ∈ f, v ∈ fleet ++ fleet') → (∀ t ∈ j, t ∈ job') → ∀ q ∈ places E f j, q ∈ places E (fleet ++ fleet') job' := by
    intro f j hf hj q hq
    rcases List.mem_append.1 hq with h | h
    · obtain ⟨v, hv, hq⟩ := List.mem_flatMap.1 h
      exact List.mem_append.2 (.inl (List.mem_flatMap.2 ⟨v, hf v hv, hq⟩))
    · obtain ⟨t, ht, hq⟩ := List.mem_flatMap.1 h
      exact List.mem_append.2 (.inr (List.mem_flatMap.2 ⟨t, hj t ht, hq⟩))
  have s1 := sub (f := fleet) (j := job) (fun _ => left) hsub
  have s2 := sub (f := fleet') (j := job') (fun _ => right) (fun _ h => h)
  have cross : ∀ v w, E.vehicle v = E.vehicle w → ∀ t, FeasibleItinerary E (E.vehicle v) (alone E v t) → FeasibleItinerary E (E.vehicle w) (alone E w t) := by
    intro v w hvw t h2
    have hsame : alone E v t = alone E w t := by unfold alone; rw [hvw]
    rwa [← hsame, ← hvw]
  rw [C141_served_iff_partial hE hf hfn hjn hx hlim (fun v hv w hw => halike v (left hv) w (left hw)) hmany
      (fun a ha b hb c hc => tri a (s1 a ha) b (s1 b hb) c (s1 c hc)) nd run,
    C141_served_iff_partial hE hf' hfn' hjn' hx hlim (fun v hv w hw => halike v (right hv) w (right hw)) hmany'
      (fun a ha b hb c hc => tri a (s2 a ha) b (s2 b hb) c (s2 c hc)) nd' run']
  constructor
  · rintro ⟨v, hv, htj, hc⟩
    exact ⟨htj, w0, hw0, hsub t htj, cross _ _ (halike v (left hv) w0 (right hw0)) t hc⟩
  · rintro ⟨htj, v, hv, _, hc⟩
    exact ⟨v0, hv0, htj, cross _ _ (halike v (right hv) v0 (left hv0)) t hc⟩

/-- **C145, never fewer.** So the second job has at least as many trips served. -/
theorem C145_never_fewer_partial (hE : EnvOK E) (hf : fleet ≠ []) (hfn : fleet.Nodup) (hf' : fleet' ≠ []) (hfn' : fleet'.Nodup) (hjn : job.Nodup) (hjn' : job'.Nodup)
    (hsub : ∀ t ∈ job, t ∈ job') (hx : ∀ t, (E.trip t).timeout = .inf) (hlim : ∀ v, (E.vehicle v).timeout = .inf)
    (halike : ∀ v ∈ fleet ++ fleet', ∀ w ∈ fleet ++ fleet', E.vehicle v = E.vehicle w) (hmany : job.length ≤ fleet.length) (hmany' : job'.length ≤ fleet'.length)
    (tri : NoShortcut E (places E (fleet ++ fleet') job')) {h h1 h2 h3 : Heap} {l l' : List Nat} (nd : NoDangling h.core) (run : ThoroughRun E fleet job h l h1)
    (nd' : NoDangling h2.core) (run' : ThoroughRun E fleet' job' h2 l' h3) :
    (l.flatMap (tripsOf h1.core)).length ≤ (l'.flatMap (tripsOf h3.core)).length :=
  ((run.plan hE hf hfn hjn hx nd).1.planning.trips.subperm fun t ht =>
    ((C145_further_trips_partial hE hf hfn hf' hfn' hjn hjn' hsub hx hlim halike hmany hmany' tri nd run nd' run' t).1 ht).2).length_le

/-! ## One vehicle -/

/-- The full claim: further trips never leave fewer trips served. -/
def MoreTripsServeMore (E : Env) (fleet job job' : List Nat) : Prop :=
  ∀ (k : Objective) (fuel : Nat) (l l' : List Nat) (h h' : Heap), (∀ t ∈ job, t ∈ job') →
    insertionOptimize E k (fun _ => plainSettings E fleet job .intensive 1) fuel none .empty = (.ok l, h) →
    insertionOptimize E k (fun _ => plainSettings E fleet job' .intensive 1) fuel none .empty = (.ok l', h') →
    (l.flatMap (tripsOf h.core)).length ≤ (l'.flatMap (tripsOf h'.core)).length

/-- One vehicle at 0; two trips to the east that can be served one after the other, and a shorter one to the west. All have to start early. -/
def lureEnv : Env where
  metric := manhattan
  trip := fun t =>
    if t = 0 then { origin := { position := [5], latest := .fin 6 }, destination := { position := [6], latest := .fin 8 } }
    else if t = 1 then { origin := { position := [6], latest := .fin 8 }, destination := { position := [7], latest := .fin 10 } }
    else { origin := { position := [-2], latest := .fin 3 }, destination := { position := [-3], latest := .fin 4 } }
  vehicle := fun _ => { origin := { position := [0] } }

/-- **C145, lured away.** One vehicle serves two trips. With a third one in the job, which makes the shortest first tour, it serves that and no other. -/
theorem C145_lured_away : ¬ MoreTripsServeMore lureEnv [0] [0, 1] [0, 1, 2] := by
  intro hp
  have h1 : (servedBy (insertionOptimize lureEnv .dialARide (fun _ => plainSettings lureEnv [0] [0, 1] .intensive 1) 4 none .empty)).map
      (fun x => x.2.length) = some 2 := by decide +kernel
  have h2 : (servedBy (insertionOptimize lureEnv .dialARide (fun _ => plainSettings lureEnv [0] [0, 1, 2] .intensive 1) 4 none .empty)).map
      (fun x => x.2.length) = some 1 := by decide +kernel
  rcases e1 : insertionOptimize lureEnv .dialARide (fun _ => plainSettings lureEnv [0] [0, 1] .intensive 1) 4 none .empty with ⟨er | l, h⟩
  · rw [e1] at h1
    cases h1
  · rcases e2 : insertionOptimize lureEnv .dialARide (fun _ => plainSettings lureEnv [0] [0, 1, 2] .intensive 1) 4 none .empty with ⟨er | l', h'⟩
    · rw [e2] at h2
      cases h2
    · have := hp .dialARide 4 l l' h h' (by simp) e1 e2
      rw [e1] at h1
      rw [e2] at h2
      simp only [servedBy, Except.toOption, Option.map_some, Option.some.injEq] at h1 h2
      omega

/-! ## Cases -/

/-- Three vehicles of a kind and the trips of `awayEnv`: whatever solver is used for the first two trips and for all three, the first two are served in both cases alike. -/
example {l l' : List Nat} {h h' : Heap} (run : ThoroughRun awayEnv [0, 1] [0, 1] .empty l h) (run' : ThoroughRun awayEnv [0, 1, 2] [0, 1, 2] .empty l' h') (t : Nat) :
    t ∈ l.flatMap (tripsOf h.core) ↔ t ∈ [0, 1] ∧ t ∈ l'.flatMap (tripsOf h'.core) :=
  C145_further_trips_partial (fleet := [0, 1]) (fleet' := [0, 1, 2]) (job := [0, 1]) (job' := [0, 1, 2]) awayEnv_ok (by simp) (by decide) (by simp) (by decide) (by decide) (by decide)
    (by simp) (by intro t; simp only [awayEnv, demoEnv]; split <;> [rfl; (split <;> rfl)]) (fun _ => rfl) (fun _ _ _ _ => rfl) (by decide) (by decide)
    (by
      intro a ha b hb c hc
      have : ∀ q ∈ places awayEnv ([0, 1] ++ [0, 1, 2]) [0, 1, 2], q.length = 1 := by decide +kernel
      exact manhattan_isMetric.triangle a b c (by rw [this a ha, this b hb]) (by rw [this b hb, this c hc]))
    empty_noDangling run empty_noDangling run' t

end Jinete
