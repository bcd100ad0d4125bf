import Verif.Props.Deliverable

/-!
# C139: GRASP loses no trip that all its first solutions serve
-/

set_option autoImplicit false

namespace Jinete

variable {E : Env} {fleet job : List Nat} {K : Nat → List Duty → Prop} {k : Objective} {c0 : Core} {rs0 : List Nat} {R : Nat → Prop}

/-- All trips `R` are on the list. -/
def Includes (R : Nat → Prop) (l : List Nat) : Prop := ∀ t, R t → t ∈ l

/-- Insertion into a planning keeps its trips. -/
theorem PlanGrown.keeps {c c' : Core} {rs l : List Nat} (g : PlanGrown E c rs c' l)
    (h0 : (rs.map fun r => (c.route r).vehicle).Perm fleet) (h1 : (l.map fun r => (c'.route r).vehicle).Perm fleet) (hfn : fleet.Nodup) {t : Nat}
    (ht : t ∈ rs.flatMap (tripsOf c)) : t ∈ l.flatMap (tripsOf c') := by
  obtain ⟨ρ, hp, hq⟩ := g.pairing h0 h1 hfn
  obtain ⟨r, hr, htr⟩ := List.mem_flatMap.1 ht
  obtain ⟨q, hql, rfl⟩ := List.mem_map.1 (hp.mem_iff.1 hr)
  refine List.mem_flatMap.2 ⟨q, hql, ?_⟩
  rw [picks_duties] at htr ⊢
  exact (hq q hql).2.picks t htr

local notation "V" => plannedValued E fleet job (Includes R) K Mode.any k c0 rs0

/-- Insertion into a planning that serves the trips `R`, or into nothing when the result then serves them. -/
theorem insertionOptimize_keeps (F : RunSetting E fleet job (Includes R) K .any) (hjn : job.Nodup)
    (hidle : ∀ v ∈ fleet, K v (idleDuties E v)) {S : Heap → Settings} (hS : ∀ h, (S h).Of E fleet job) {fuel : Nat} {X : Err → Prop}
    (hX : ∀ e, InsertErr S fuel job e → X e) {initial : Option (List Nat)} {s : Heap} (hg : (V).Good s) (ha : ∀ r, initial = some r → (V).Alive s r)
    (hfirst : initial = none → ∀ l h', insertionPlanning (S s) none fuel s = (.ok l, h') → ∀ t, R t → t ∈ l.flatMap (tripsOf h'.core)) :
    (V).Safe X s (insertionOptimize E k S fuel initial) := by
  refine logged_safe (fun r s => logResult_safe F.env F.some r s) ?_
  have ha' : ∀ r, initial = some r → PlanInv E fleet job (Includes R) K .any s r := ha
  rcases insertionPlanning_run (W := fun _ => True) (K := K) (md := .any) (c0 := c0) (rs0 := rs0) F.env F.timeout F.fleetNodup hjn (fun _ _ _ => trivial) F.movable hidle (hS s) (k := k) hg
    (initial := initial) (fun rs e => { ha' rs e with work := trivial }) fuel with ⟨l, h', e, f, p, hgr⟩ | ⟨e, h', h1, h2⟩
  · have iso : Isolated s (insertionPlanning (S s) initial fuel s) :=
      C80_insertion_isolated (S s) (fun k l x hx => ((hS s).fair.order k l).mem_iff.1 hx) initial fuel hg.1
        fun rs e r hr => ((ha' rs e).wf r hr).exists_
    rw [e] at iso
    refine .of_ok e ⟨follows_of_untouched hg iso.noDangling iso.untouched, ?_⟩
    have hw : ∀ t, R t → t ∈ l.flatMap (tripsOf h'.core) := by
      cases initial with
      | none => exact hfirst rfl l h' e
      | some rs => exact fun t ht => (hgr rs rfl).keeps (ha' rs rfl).vehicles p.vehicles F.fleetNodup ((ha' rs rfl).work t ht)
    show PlanInv E fleet job (Includes R) K .any h' l
    exact { p with work := hw }
  · refine .of_error h1 (hX e ?_)
    rcases h2 with h2 | h2
    · exact .inl ⟨s, h2⟩
    · exact .inr h2

section Grasp

variable {D : Nat → Heap → Draws} {S : Nat → Heap → Settings} {threshold fuel : Nat} {seeds : Nat → Nat} {draw draw' : Nat → Nat → Nat}
  {episodes firstEpisodes : Nat}

/-- **C139, nothing is lost.** Trips that every insertion from nothing serves, whatever the seed and the heap, are served by GRASP, under every objective. -/
theorem C139_nothing_lost (hE : EnvOK E) (hf : fleet ≠ []) (hfn : fleet.Nodup) (hjn : job.Nodup) (hD : ∀ s h, (D s h).OK)
    (hS : ∀ s h, (S s h).Of E fleet job) {h : Heap} (nd : NoDangling h.core) (he : 0 < episodes) (hfe : 0 < firstEpisodes)
    (hfirst : ∀ seed h0 l s, insertionAlgorithm (S seed h0) none fuel (.initial h0) = (.ok l, s) → ∀ t, R t → t ∈ l.flatMap (tripsOf s.heap.core))
    {l : List Nat} {h' : Heap} (e : graspOptimize E k D S threshold fuel seeds draw draw' episodes firstEpisodes h = (.ok l, h')) {t : Nat} (ht : R t) :
    t ∈ l.flatMap (tripsOf h'.core) := by
  have F : RunSetting E fleet job (Includes R) (fun v ds => True → Proper E v ds) .any :=
    ⟨hE, (fun h => nomatch h), hf, hfn, fun _ _ hp h t ht => hp.mem_iff.1 (h t ht), proper_movable _⟩
  have hlog := fun r s => logResult_safe (k := k) (fleet := fleet) (job := job) (W := Includes R) (K := fun v ds => True → Proper E v ds)
    (md := .any) (c0 := h.core) (rs0 := []) (X := fun _ => True) hE hf r s
  have safe : (plannedValued E fleet job (Includes R) (fun v ds => True → Proper E v ds) .any k h.core []).Safe (fun _ => True) h
      (graspOptimize E k D S threshold fuel seeds draw draw' episodes firstEpisodes) := by
    refine logged_safe hlog (grasp_safe hlog ?_ ?_ ⟨nd, by simp [RoutesKept]⟩ he hfe)
    · intro seed s hg
      refine insertionOptimize_keeps F hjn (fun v _ _ => proper_idle v) (hS seed) (fun _ _ => trivial) hg (fun _ e => nomatch e) fun _ l h1 e1 => ?_
      have ef : (insertionAlgorithm (S seed s) none fuel (.initial s)).1 = .ok l := congrArg Prod.fst e1
      have es : (insertionAlgorithm (S seed s) none fuel (.initial s)).2.heap = h1 := congrArg Prod.snd e1
      rw [← es]
      exact hfirst seed s l _ (eq_of_fst ef)
    · intro seed st hst s r hg ha
      simp only [defaultStages, List.mem_cons, List.not_mem_nil, or_false] at hst
      rcases hst with rfl | rfl
      · exact localSearchOptimize_safe F (hD seed) trivial hg ha
      · exact insertionOptimize_keeps F hjn (fun v _ _ => proper_idle v) (hS seed) (fun _ _ => trivial) hg (by rintro _ ⟨⟩; exact ha) (fun e => nomatch e)
  have p : PlanInv E fleet job _ _ .any h' l := (safe.ok e).2
  exact p.work t ht

/-- **C139, enough vehicles.** The conditions of `C135_enough_vehicles` on the settings of all episodes: no
planning of the job serves more trips than the result of GRASP, under every objective. -/
theorem C139_enough_vehicles (hE : EnvOK E) (hf : fleet ≠ []) (hfn : fleet.Nodup) (hjn : job.Nodup) (hD : ∀ s h, (D s h).OK)
    (hS : ∀ s h, (S s h).Of E fleet job) (hst : ∀ s h, (S s h).strategy.Tries) (hsz : ∀ s h, job.length ≤ neighborhoodSize (S s h))
    (ho : ∀ s h, (S s h).onlyFeasible = true ∨ (S s h).randomized = 1)
    (hx : ∀ t, (E.trip t).timeout = .inf) (hlim : ∀ v ∈ fleet, (E.vehicle v).timeout = .inf)
    (halike : ∀ v ∈ fleet, ∀ w ∈ fleet, E.vehicle v = E.vehicle w) (hmany : job.length ≤ fleet.length)
    {h : Heap} (nd : NoDangling h.core) (he : 0 < episodes) (hfe : 0 < firstEpisodes) {l : List Nat} {h' : Heap}
    (e : graspOptimize E k D S threshold fuel seeds draw draw' episodes firstEpisodes h = (.ok l, h')) (c : Core) (qs : List Nat)
    (hs : ∀ q ∈ qs, Served E fleet c q) (hnd : (qs.flatMap (tripsOf c)).Nodup) (hj : ∀ t ∈ qs.flatMap (tripsOf c), t ∈ job) :
    (∀ t ∈ qs.flatMap (tripsOf c), t ∈ l.flatMap (tripsOf h'.core)) ∧
    (qs.flatMap (tripsOf c)).length ≤ (l.flatMap (tripsOf h'.core)).length := by
  have all : ∀ t ∈ qs.flatMap (tripsOf c), t ∈ l.flatMap (tripsOf h'.core) := fun t ht => by
    refine C139_nothing_lost (R := (· ∈ qs.flatMap (tripsOf c))) hE hf hfn hjn hD hS nd he hfe ?_ e ht
    intro seed h0 l s e0 t ht
    by_contra hn
    obtain ⟨q, hq, htq⟩ := List.mem_flatMap.1 ht
    have hS0 := hS seed h0
    refine (C135_enough_vehicles (S := S seed h0) (by rw [hS0.env]; exact hE) hS0.fair
      ⟨by rw [hS0.fleet]; exact hfn, by rw [hS0.job]; exact hjn⟩ hS0.randomized (hst seed h0)
      (by rw [hS0.job]; exact hsz seed h0) (ho seed h0) (by rw [hS0.env]; exact hx) (by rw [hS0.env, hS0.fleet]; exact hlim)
      (by rw [hS0.env, hS0.fleet]; exact halike) (by rw [hS0.job, hS0.fleet]; exact hmany) e0).1 t (by rw [hS0.job]; exact hj t ht) hn c q ?_ htq
    rw [hS0.env, hS0.fleet]
    exact hs q hq
  exact ⟨all, (hnd.subperm all).length_le⟩

/-- **C139, everybody is served.** With at least as many vehicles as trips, if every vehicle can serve every trip of the job when it serves nothing else, then GRASP
serves all trips; tours may be limited and detours may save time. -/
theorem C139_all_served (hE : EnvOK E) (hf : fleet ≠ []) (hfn : fleet.Nodup) (hjn : job.Nodup) (hD : ∀ s h, (D s h).OK)
    (hS : ∀ s h, (S s h).Of E fleet job) (hst : ∀ s h, (S s h).strategy.Tries) (hsz : ∀ s h, job.length ≤ neighborhoodSize (S s h))
    (ho : ∀ s h, (S s h).onlyFeasible = true ∨ (S s h).randomized = 1) (hx : ∀ t, (E.trip t).timeout = .inf) (hmany : job.length ≤ fleet.length)
    (halone : ∀ v ∈ fleet, ∀ t ∈ job, FeasibleItinerary E (E.vehicle v) (alone E v t))
    {h : Heap} (nd : NoDangling h.core) (he : 0 < episodes) (hfe : 0 < firstEpisodes) {l : List Nat} {h' : Heap}
    (e : graspOptimize E k D S threshold fuel seeds draw draw' episodes firstEpisodes h = (.ok l, h')) : (l.flatMap (tripsOf h'.core)).Perm job := by
  have all : ∀ t ∈ job, t ∈ l.flatMap (tripsOf h'.core) := fun t ht => by
    refine C139_nothing_lost (R := (· ∈ job)) hE hf hfn hjn hD hS nd he hfe ?_ e ht
    intro seed h0 l s e0 t ht
    have hS0 := hS seed h0
    have := C135_all_served (S := S seed h0) (by rw [hS0.env]; exact hE) hS0.fair
      ⟨by rw [hS0.fleet]; exact hfn, by rw [hS0.job]; exact hjn⟩ hS0.randomized (hst seed h0)
      (by rw [hS0.job]; exact hsz seed h0) (ho seed h0) (by rw [hS0.env]; exact hx) (by rw [hS0.job, hS0.fleet]; exact hmany)
      (by rw [hS0.env, hS0.fleet, hS0.job]; exact halone) e0
    exact this.mem_iff.2 (by rw [hS0.job]; exact ht)
  rcases C83_grasp_whole (threshold := threshold) (fuel := fuel) (seeds := seeds) (draw := draw) (draw' := draw') hE hf hfn hjn hD hS nd k he hfe with
    ⟨l', h1, e', p, _⟩ | ⟨h1, e'⟩
  · rw [e] at e'
    cases e'
    exact (List.perm_ext_iff_of_nodup p.trips hjn).2 fun t => ⟨p.job t, all t⟩
  · rw [e] at e'
    cases e'

/-- **C139.** Solving a Hash Code file with at least as many vehicles as rides by GRASP, the insertions trying all trips, either
runs out of rounds or writes a submission with exactly the rides for which the round trip can be made, each once. -/
theorem C139_rides_submitted {rows : Rows} {f n : Nat} {b T : ℚ} {euclid : Pos → Pos → ℚ} {columnar : OutputFormat} {source target : Text} {removeEmpty : Bool}
    {w : Site} {text : Text} (ht : w.file source = some text) (hr : FileText text rows) (hd : HashCodeData rows f n b T) (hf : 0 < f) (hmany : n ≤ f)
    (hD : ∀ s h, (D s h).OK) {S : Problem → Nat → Heap → Settings} (hS : ∀ P s h, (S P s h).Of P.env P.fleet P.job)
    (hst : ∀ P s h, (S P s h).strategy.Tries) (hsz : ∀ P s h, P.job.length ≤ neighborhoodSize (S P s h))
    (ho : ∀ P s h, (S P s h).onlyFeasible = true ∨ (S P s h).randomized = 1) (nd : NoDangling w.data.2.core) (he : 0 < episodes) (hfe : 0 < firstEpisodes) :
    (∃ P l w' o, (fileSolver euclid columnar source target hashcodeInput (hashcodeOutput removeEmpty) fun P =>
        graspOptimize P.env P.objective D (S P) threshold fuel seeds draw draw' episodes firstEpisodes).solve w = (.ok (.result P l), w') ∧
      Submitted rows f n b removeEmpty target w w' P l ∧ w'.file target = some o ∧ (submissionLines o).flatten.Nodup ∧
      ∀ t, t ∈ (submissionLines o).flatten ↔ t < n ∧ (contestRide rows t).RoundTrip T) ∨
    ∃ w', (fileSolver euclid columnar source target hashcodeInput (hashcodeOutput removeEmpty) fun P =>
        graspOptimize P.env P.objective D (S P) threshold fuel seeds draw draw' episodes firstEpisodes).solve w = (.error .outOfFuel, w') ∧ w'.file = w.file := by
  obtain ⟨trips, vehicles, s, s', e1, e2, hP⟩ := hashcode_problem hd hr
  set P : Problem := ⟨manhattan, .hashCode, trips, vehicles⟩ with hPdef
  have hjl : P.job.length = n := by rw [Problem.job, List.length_range, hP.trips]
  have main := solve_file (euclid := euclid) (columnar := columnar) (target := target) (F := hashcodeInput) (f := hashcodeOutput removeEmpty)
    (optimize := fun P => graspOptimize P.env P.objective D (S P) threshold fuel seeds draw draw' episodes firstEpisodes) ht e1 e2
  have fne : ∀ P, HashCodeProblem rows f n P → P.fleet ≠ [] := fun P hP => by
    rw [Problem.fleet, hP.vehicles]
    simp [hf.ne']
  have whole : ∀ Q, HashCodeProblem rows f n Q →
      (∃ l h', graspOptimize Q.env Q.objective D (S Q) threshold fuel seeds draw draw' episodes firstEpisodes w.data.2 = (.ok l, h') ∧
        GoodPlan Q.env Q.fleet Q.job h' l) ∨
      ∃ h', graspOptimize Q.env Q.objective D (S Q) threshold fuel seeds draw draw' episodes firstEpisodes w.data.2 = (.error .outOfFuel, h') := by
    intro Q hQ
    rcases C83_grasp_whole (threshold := threshold) (fuel := fuel) (seeds := seeds) (draw := draw) (draw' := draw') hQ.ok (fne Q hQ) List.nodup_range
      (List.nodup_range (n := Q.trips.length)) hD (hS Q) nd Q.objective he hfe with ⟨l, h', e, h1, h2, h3, h4, _⟩ | h
    · exact .inl ⟨l, h', e, h1, h2, h3, h4⟩
    · exact .inr h
  obtain ⟨P', hP', hrun⟩ := hashcode_run (euclid := euclid) (columnar := columnar) (source := source) (target := target) (removeEmpty := removeEmpty) (w := w)
    (optimize := fun P => graspOptimize P.env P.objective D (S P) threshold fuel seeds draw draw' episodes firstEpisodes) ht hr hd whole
  rcases hrun with ⟨l', w', er, hs⟩ | ⟨h2, w', _, er, hw⟩
  · refine .inl ?_
    rcases whole P hP with ⟨l, h', e, _⟩ | ⟨h', e⟩
    · have e' : graspOptimize (Problem.env ⟨hashcodeInput.metric, hashcodeInput.objective, trips, vehicles⟩)
        (Problem.objective ⟨hashcodeInput.metric, hashcodeInput.objective, trips, vehicles⟩) D
        (S ⟨hashcodeInput.metric, hashcodeInput.objective, trips, vehicles⟩) threshold fuel seeds draw draw' episodes firstEpisodes w.data.2 = (.ok l, h') := e
      rw [e'] at main
      have main := er.symm.trans main
      have mP := congrArg (fun x => x.1) main
      have mw : w'.data.2 = h' := congrArg (fun x => x.2.data.2) main
      cases mP
      obtain ⟨o, hof, _, hperm, _⟩ := hs.written
      refine ⟨P, l', w', o, er, hs, hof, ?_, fun t => ?_⟩
      · rw [hperm.flatten.nodup_iff]
        exact List.Nodup.sublist (List.Sublist.flatten List.filter_sublist) hs.plan.planning.trips
      · rw [hperm.flatten.mem_iff]
        refine ⟨fun h => C138_no_other_rides hd hs.problem hs.plan ((List.Sublist.flatten List.filter_sublist).subset h), fun ⟨h1, h2⟩ => ?_⟩
        have hin : t ∈ l'.flatMap (tripsOf w'.data.2.core) := by
          rw [mw]
          refine C139_nothing_lost (R := fun t => t < n ∧ (contestRide rows t).RoundTrip T) hP.ok (fne P hP) List.nodup_range
            (List.nodup_range (n := P.trips.length)) hD (hS P) nd he hfe ?_ e ⟨h1, h2⟩
          intro seed h0 l s e0 t ht
          have hS0 := hS P seed h0
          exact C138_all_such_rides hd hP hS0 (hst P seed h0)
            (by have := hsz P seed h0; rw [hjl] at this; exact this) (ho P seed h0) hmany e0 ht.1 ht.2
        obtain ⟨r, hrl, htr⟩ := List.mem_flatMap.1 hin
        refine List.mem_flatten.2 ⟨tripsOf w'.data.2.core r, List.mem_filter.2 ⟨List.mem_map_of_mem hrl, ?_⟩, htr⟩
        simp [List.ne_nil_of_mem htr]
    · have e' : graspOptimize (Problem.env ⟨hashcodeInput.metric, hashcodeInput.objective, trips, vehicles⟩)
        (Problem.objective ⟨hashcodeInput.metric, hashcodeInput.objective, trips, vehicles⟩) D
        (S ⟨hashcodeInput.metric, hashcodeInput.objective, trips, vehicles⟩) threshold fuel seeds draw draw' episodes firstEpisodes w.data.2 =
          (.error .outOfFuel, h') := e
      rw [e'] at main
      have main := er.symm.trans main
      have := congrArg (fun x => x.1) main
      cases this
  · exact .inr ⟨w', er, hw⟩

end Grasp

/-! ## Cases -/

def awayGrasp : Except Err (List Nat) × Heap :=
  graspOptimize awayEnv .dialARide (fun _ _ => plainDraws) (fun _ _ => awaySettings) 0 9 id (fun a b => a + b) (fun a b => a * b) 1 1 .empty

/-- GRASP with three vehicles and three trips, of which one cannot be reached in time, serves the other two; so no planning serves all three. -/
example : (servedBy awayGrasp).map (fun x => (x.1, decide (x.2.Perm [0, 1]))) = some (3, true) ∧
    ∀ (c : Core) (qs : List Nat), (∀ q ∈ qs, Served awayEnv [0, 1, 2] c q) → ¬ (qs.flatMap (tripsOf c)).Perm [0, 1, 2] := by
  have hrun : (servedBy awayGrasp).map (fun x => (x.1, decide (x.2.Perm [0, 1]))) = some (3, true) := by decide +kernel
  refine ⟨hrun, fun c qs hs hp => ?_⟩
  rcases e : awayGrasp with ⟨er | l, h'⟩
  · rw [e] at hrun
    cases hrun
  · have := (C139_enough_vehicles (fleet := [0, 1, 2]) (job := [0, 1, 2]) awayEnv_ok (by simp) (by decide) (by decide) (fun _ _ => plainDraws_ok)
      (fun _ _ => ⟨rfl, rfl, rfl, plainSettings_fair _ _ _ _, Nat.one_pos⟩) (fun _ _ => by intro _ _ _ h; cases h) (fun _ _ => by decide) (fun _ _ => .inl rfl)
      (by intro t; simp only [awayEnv, demoEnv]; split <;> [rfl; (split <;> rfl)])
      (fun _ _ => rfl) (fun _ _ _ _ => rfl) (by decide) empty_noDangling Nat.one_pos Nat.one_pos e c qs hs
      (hp.nodup_iff.2 (by decide)) (fun t ht => hp.mem_iff.1 ht)).2
    rw [e] at hrun
    simp only [servedBy, Except.toOption, Option.map_some, Option.some.injEq, Prod.mk.injEq, decide_eq_true_eq] at hrun
    rw [hp.length_eq, hrun.2.length_eq] at this
    exact absurd this (by decide)

/-- Both vehicles of `farEnv` can serve both trips, so GRASP serves both, whatever the orders and draws. -/
example (D : Nat → Heap → Draws) (hD : ∀ s h, (D s h).OK) (seeds : Nat → Nat) (draw draw' : Nat → Nat → Nat) (threshold : Nat) :
    ∃ N, ∀ fuel, N ≤ fuel → ∃ l h', graspOptimize farEnv .dialARide D (fun _ _ => plainSettings farEnv [0, 1] [0, 1] .intensive 1) threshold fuel seeds draw draw'
      3 2 .empty = (.ok l, h') ∧ (l.flatMap (tripsOf h'.core)).Perm [0, 1] := by
  have hS : ∀ (_ : Nat) (_ : Heap), (plainSettings farEnv [0, 1] [0, 1] .intensive 1).Of farEnv [0, 1] [0, 1] := fun _ _ =>
    ⟨rfl, rfl, rfl, plainSettings_fair _ _ _ _, Nat.one_pos⟩
  obtain ⟨N, hN⟩ := C83_grasp_returns (fleet := [0, 1]) (job := [0, 1]) farEnv_ok (by simp) (by decide) (by decide) threshold (k := .dialARide) (by decide)
  refine ⟨N, fun fuel hfuel => ?_⟩
  obtain ⟨l, h', e⟩ := hN D (fun _ _ => plainSettings farEnv [0, 1] [0, 1] .intensive 1) fuel seeds draw draw' 3 2 .empty hD hS
    (fun _ _ _ _ _ h => nomatch h) empty_noDangling (by omega) (by omega) hfuel
  refine ⟨l, h', e, C139_all_served (fleet := [0, 1]) farEnv_ok (by simp) (by decide) (by decide) hD hS (fun _ _ => by intro _ _ _ h; cases h)
    (fun _ _ => by simp [neighborhoodSize, plainSettings]) (fun _ _ => .inr rfl) ?_ (by simp) far_alone empty_noDangling (by omega) (by omega) e⟩
  intro t
  simp only [farEnv]
  split_ifs <;> rfl

/-- Two vehicles and two rides, both of which allow a round trip: with enough rounds, GRASP submits both, whatever the seeds and draws. -/
example (D : Nat → Heap → Draws) (hD : ∀ s h, (D s h).OK) (seeds : Nat → Nat) (draw draw' : Nat → Nat → Nat) (threshold : Nat) :
    ∃ N, ∀ fuel, N ≤ fuel → ∃ P l w' o, (fileSolver manhattan (fun _ _ => pure []) "a.in".toList "a.out".toList hashcodeInput (hashcodeOutput true) fun P =>
        graspOptimize P.env P.objective D (fun _ _ => plainSettings P.env P.fleet P.job .intensive 1) threshold fuel seeds draw draw' 3 2).solve demoSite =
          (.ok (.result P l), w') ∧
      w'.file "a.out".toList = some o ∧ 0 ∈ (submissionLines o).flatten ∧ 1 ∈ (submissionLines o).flatten := by
  obtain ⟨N, hN⟩ := C86_grasp_submission_partial (euclid := manhattan) (columnar := fun _ _ => pure []) (source := "a.in".toList)
    (target := "a.out".toList) (removeEmpty := true) demoInput_rows demoHashCode_shape (by omega) threshold
  refine ⟨N, fun fuel hfuel => ?_⟩
  have hS : ∀ (P : Problem) (_ : Nat) (_ : Heap), (plainSettings P.env P.fleet P.job .intensive 1).Of P.env P.fleet P.job := fun P _ _ =>
    ⟨rfl, rfl, rfl, plainSettings_fair _ _ _ _, Nat.one_pos⟩
  rcases C139_rides_submitted (euclid := manhattan) (columnar := fun _ _ => pure []) (source := "a.in".toList)
    (target := "a.out".toList) (removeEmpty := true) (w := demoSite) (text := demoInput) (D := D) (threshold := threshold) (fuel := fuel) (seeds := seeds)
    (draw := draw) (draw' := draw') (episodes := 3) (firstEpisodes := 2) (S := fun P _ _ => plainSettings P.env P.fleet P.job .intensive 1)
    (by simp [demoSite]) demoInput_rows demoHashCode_shape (by omega) (by omega) hD hS (fun _ _ _ => by intro _ _ _ h; cases h)
    (fun P _ _ => by simp [neighborhoodSize, plainSettings]) (fun _ _ _ => .inr rfl) empty_noDangling (by omega) (by omega) with
    ⟨P, l, w', o, e, -, ho, -, hiff⟩ | ⟨w', e, -⟩
  · exact ⟨P, l, w', o, e, ho, (hiff 0).2 ⟨by omega, demoRides_roundTrip.1⟩, (hiff 1).2 ⟨by omega, demoRides_roundTrip.2⟩⟩
  · rcases hN D (fun P _ _ => plainSettings P.env P.fleet P.job .intensive 1) fuel seeds draw draw' 3 2 demoSite (by simp [demoSite]) hD hS
      empty_noDangling (by omega) (by omega) with ⟨P, l, w2, e2, _⟩ | ⟨_, h⟩
    · rw [e] at e2
      cases e2
    · exact absurd (h fun _ _ _ _ _ _ h => nomatch h) (by omega)

end Jinete
