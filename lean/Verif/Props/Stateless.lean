import Verif.Proofs.Stateless
import Verif.Props.Insertion

/-!
# C32, C33: the stateless iterators
-/

set_option autoImplicit false

namespace Jinete

variable {S : Settings} {h : Heap} {initial : Option (List Nat)}

/-- The full claim C32: in every state of a run each trip of the job is pending or served by one of the routes. -/
def StatelessAccounts (S : Settings) : Prop :=
  ∀ (h : Heap) (initial : Option (List Nat)) (s : IterState), (∀ rs, initial = some rs → Startable S h rs) →
    StatelessRun S h initial s → ∀ t ∈ S.job, t ∈ s.pending ∨ ∃ e ∈ s.container, t ∈ tripsOf s.heap.core e.2

/-- **C32 (partial).** In every state of a run, and in the result of the algorithm, there is one well formed route per
vehicle; no trip is pending and served, or served twice, and all are trips of the job; each route is the one of its
vehicle at the start, or that one with a single trip inserted. Accepting a route takes exactly one trip off the pending
ones; the trips that the replaced route served and the new one does not, and only these, are lost. The algorithm raises
nothing, unless the loop of the sampling strategy does not end within its fuel. What is missing: the lost trips, which are neither
pending nor served (false by `C32_trip_lost`). -/
theorem C32_stateless_partial (hE : EnvOK S.env) (hF : Fair S) (hc : Clean S)
    (hs : ∀ rs, initial = some rs → Startable S h rs) :
    (∀ s, StatelessRun S h initial s →
      (s.container.map Prod.fst).Perm S.fleet ∧
      (∀ e ∈ s.container, (s.heap.core.route e.2).vehicle = e.1 ∧ WellFormed s.heap.core e.2 ∧
        ∃ ds, StartDuties S h initial e.1 ds ∧ (duties s.heap.core e.2 = ds ∨
          ∃ t i j, i < j ∧ j < ds.length ∧ duties s.heap.core e.2 = withTrip S.env t i j ds)) ∧
      (s.pending ++ s.container.flatMap fun e => tripsOf s.heap.core e.2).Nodup ∧
      ∀ t ∈ s.pending ++ s.container.flatMap (fun e => tripsOf s.heap.core e.2), t ∈ S.job) ∧
    (∀ s s1 s2 s3 r, StatelessRun S h initial s → nextStateless S s = (.ok r, s1) →
      onHeap (routeFeasible S.env r) s1 = (.ok true, s2) → setRoute markStateless r s2 = (.ok (), s3) →
      ∃ t ∈ s.pending, s3.pending = s.pending.erase t ∧ ∃ a b w q, s.container = a ++ (w, q) :: b ∧
        s3.container = a ++ (w, r) :: b ∧
        (s3.pending ++ (s3.container.flatMap fun e => tripsOf s3.heap.core e.2) ++
          (tripsOf s.heap.core q).filter fun u => u ∉ tripsOf s3.heap.core r).Perm
            (s.pending ++ s.container.flatMap fun e => tripsOf s.heap.core e.2)) ∧
    (∀ fuel e s, S.job.length < fuel → statelessAlgorithm S initial fuel (.initial h) = (.error e, s) →
      ¬ S.strategy.Ends ∧ e = .outOfFuel) := by
  have hx : Mode.any = Mode.exact → ∀ t, (S.env.trip t).timeout = .inf := fun h => nomatch h
  refine ⟨?_, ?_, ?_⟩
  · intro s run
    obtain ⟨start, R, k⟩ := run.less hE hF hc hx (starts_any hc hs)
    refine ⟨k.keys, ?_, k.nodup hc, fun t ht => k.trips.subset ht⟩
    intro e he
    obtain ⟨h1, h2, h3⟩ := k.routes e he
    refine ⟨h2, k.inv.ok.wf _ h1, ?_⟩
    rcases h3 with h3 | ⟨_, r0, t, i, j, h4, hij, hj, hd⟩
    · exact ⟨_, (k.origin e h3).2.2, .inl rfl⟩
    · exact ⟨_, (k.origin _ h4).2.2, .inr ⟨t, i, j, hij, by simpa [duties, itinerary] using hj, hd⟩⟩
  · intro s s1 s2 s3 r run e1 e2 e3
    obtain ⟨start, R, k⟩ := run.less hE hF hc hx (starts_any hc hs)
    obtain ⟨R', w, t, r0, hR, same, acc, hw, hp, k3⟩ := k.step hE hF hc hx e1 e2 e3
    obtain ⟨q, hq⟩ := k.current hw
    have hkn : (s.container.map Prod.fst).Nodup := k.keys.nodup_iff.2 hc.fleet
    obtain ⟨A, B, eA, eB⟩ := dictSet_split hkn hq r
    have hnd := k.nodup hc
    have h0R := (k.origin _ hw).1
    have hqR := (k.routes _ hq).1
    have hkeep := k.keeps hc hq hw
    rw [same.tripsOf h0R] at hp
    have htq : t ∉ tripsOf s.heap.core q := fun h =>
      (List.nodup_append.1 hnd).2.2 t acc.mem t (List.mem_flatMap.2 ⟨_, hq, h⟩) rfl
    refine ⟨t, acc.mem, acc.pending, A, B, w, q, eA, by rw [acc.container, eB], ?_⟩
    have hA : A.flatMap (fun e => tripsOf s3.heap.core e.2) = A.flatMap fun e => tripsOf s.heap.core e.2 :=
      List.flatMap_congr fun e he => same.tripsOf (k.routes e (by rw [eA]; simp [he])).1
    have hB : B.flatMap (fun e => tripsOf s3.heap.core e.2) = B.flatMap fun e => tripsOf s.heap.core e.2 :=
      List.flatMap_congr fun e he => same.tripsOf (k.routes e (by rw [eA]; simp [he])).1
    rw [acc.container, eB, acc.pending]
    conv_rhs => rw [eA]
    rw [List.flatMap_append, List.flatMap_cons, List.flatMap_append, List.flatMap_cons, hA, hB]
    have hqn : (tripsOf s.heap.core q).Nodup := by
      have := (List.nodup_append.1 hnd).2.1
      rw [eA, List.flatMap_append, List.flatMap_cons] at this
      exact (List.nodup_append.1 (List.nodup_append.1 this).2.1).1
    have hq' : ((tripsOf s.heap.core q).filter (fun u => u ∉ tripsOf s3.heap.core r) ++ tripsOf s.heap.core r0).Perm (tripsOf s.heap.core q) := by
      refine (List.perm_ext_iff_of_nodup ?_ hqn).2 ?_
      · refine List.nodup_append.2 ⟨hqn.filter _, ?_, ?_⟩
        · obtain ⟨l, h1, h2⟩ := hkeep
          exact h1.nodup_iff.1 (h2.nodup hqn)
        · rintro a ha b hb rfl
          have := (List.mem_filter.1 ha).2
          simp only [decide_eq_true_eq] at this
          exact this (hp.mem_iff.2 (by simp [hb]))
      · intro u
        simp only [List.mem_append, List.mem_filter, decide_eq_true_eq]
        constructor
        · rintro (h | h)
          · exact h.1
          · exact hkeep.subset h
        · intro hu
          by_cases h : u ∈ tripsOf s3.heap.core r
          · rcases List.mem_cons.1 (hp.mem_iff.1 h) with rfl | h
            · exact (htq hu).elim
            · exact .inr h
          · exact .inl ⟨hu, h⟩
    rw [List.perm_iff_count]
    intro z
    have h2 := List.perm_iff_count.1 hp z
    have h3 := List.perm_iff_count.1 (List.perm_cons_erase acc.mem) z
    have h4 := List.perm_iff_count.1 hq' z
    simp only [List.count_append, List.count_cons] at h2 h3 h4 ⊢
    omega
  · intro fuel e s hl he
    rcases (statelessAlgorithm_meets hE hF hc hx (starts_any hc hs) fuel).error he with ⟨h1, h2⟩ | ⟨_, h2⟩
    · exact ⟨h2, h1⟩
    · omega

/-- One vehicle, two trips. -/
def pairSettings : Settings := plainSettings farEnv [0] [0, 1] .tail 1

/-- After construction. -/
def pair0 : IterState := (iteratorInit pairSettings none (.initial .empty)).2
/-- After the first `next` and `feasible`. -/
def pair1 : IterState := (nextStateless pairSettings pair0).2
/-- After `feasible`. -/
def pair2 : IterState := (onHeap (routeFeasible farEnv 1) pair1).2
/-- After trip 0 was accepted. -/
def pair3 : IterState := (setRoute markStateless 1 pair2).2
/-- After the second `next`. -/
def pair4 : IterState := (nextStateless pairSettings pair3).2
/-- After `feasible`. -/
def pair5 : IterState := (onHeap (routeFeasible farEnv 2) pair4).2
/-- After trip 1 was accepted. -/
def pair6 : IterState := (setRoute markStateless 2 pair5).2

theorem pair0_eq : iteratorInit pairSettings none (.initial .empty) = (.ok (), pair0) := eq_of_fst (by decide +kernel)
theorem pair1_eq : nextStateless pairSettings pair0 = (.ok 1, pair1) := eq_of_fst (by decide +kernel)
theorem pair2_eq : onHeap (routeFeasible farEnv 1) pair1 = (.ok true, pair2) := eq_of_fst (by decide +kernel)
theorem pair3_eq : setRoute markStateless 1 pair2 = (.ok (), pair3) := eq_of_fst (by decide +kernel)
theorem pair4_eq : nextStateless pairSettings pair3 = (.ok 2, pair4) := eq_of_fst (by decide +kernel)
theorem pair5_eq : onHeap (routeFeasible farEnv 2) pair4 = (.ok true, pair5) := eq_of_fst (by decide +kernel)
theorem pair6_eq : setRoute markStateless 2 pair5 = (.ok (), pair6) := eq_of_fst (by decide +kernel)

theorem pair6_run : StatelessRun pairSettings .empty none pair6 :=
  .step (.step (.init pair0_eq) pair1_eq pair2_eq pair3_eq) pair4_eq pair5_eq pair6_eq

theorem pairSettings_fair : Fair pairSettings where
  order _ l := List.Perm.refl l
  choice _ _ h := h
  rnd _ _ _ h := nomatch h

/-- The hypotheses hold along this run: first trip 0 is served, then trip 1 only. -/
example : EnvOK farEnv ∧ Fair pairSettings ∧ Clean pairSettings ∧ StatelessRun pairSettings .empty none pair6 ∧
    pair3.pending = [1] ∧ tripsOf pair3.heap.core 1 = [0] ∧ pair6.container = [(0, 2)] ∧ tripsOf pair6.heap.core 2 = [1] :=
  ⟨farEnv_ok, pairSettings_fair, ⟨by decide, by decide⟩, pair6_run, by decide +kernel, by decide +kernel, by decide +kernel,
    by decide +kernel⟩

/-- C32 is false: the set of attractive routes keeps the empty route of the vehicle, so the second accepted route
replaces the first, whose trip is then neither pending nor served. -/
theorem C32_trip_lost : ¬ StatelessAccounts pairSettings := by
  intro hp
  have := hp .empty none pair6 (fun _ h => nomatch h) pair6_run 0 (by decide)
  revert this
  decide +kernel

/-! ## C33 -/

/-- The full claim C33: `next` returns one of the routes that the generator yields, such that fewer than
`randomized_size` of them are better, or stops if there is none. -/
def BestStatelessWorks (S : Settings) : Prop :=
  ∀ (s : IterState) (g : List (Nat × Nat) × List Nat) (cand : List Nat) (s1 s2 : IterState), openGenerator S s = (.ok g, s1) →
    drain S g.1 g.2 s1 = (.ok cand, s2) →
    (cand = [] → (nextBestStateless S s).1 = .error .stopIteration) ∧ (cand ≠ [] → ∃ r ∈ cand, (nextBestStateless S s).1 = .ok r ∧
      ∀ l : List Nat, l.Nodup → (∀ q ∈ l, q ∈ cand ∧ Better S s2.heap q r) → l.length < S.randomized)

/-- **C33 (partial).** What `next` does instead: it never returns a route; it raises `TypeError` if there is no candidate or more than two,
otherwise `AttributeError`, or stops the iteration if `randomized_size = 0`. In every state, with every setting. -/
theorem C33_outcome_partial (S : Settings) (s s1 s2 : IterState) (g : List (Nat × Nat) × List Nat) (cand : List Nat)
    (e1 : openGenerator S s = (.ok g, s1)) (e2 : drain S g.1 g.2 s1 = (.ok cand, s2)) :
    nextBestStateless S s = (.error (if cand.length = 0 ∨ 2 < cand.length then .typeError
      else if S.randomized = 0 then .stopIteration else .attributeError), s2) := by
  unfold nextBestStateless
  rw [Py.bind_ok e1]
  show (drain S g.1 g.2 >>= _) s1 = _
  rw [Py.bind_ok e2]
  match cand with
  | [] => rfl
  | [_] => by_cases h : S.randomized = 0 <;> simp [h, Py.raise]
  | [_, _] => by_cases h : S.randomized = 0 <;> simp [h, Py.raise]
  | _ :: _ :: _ :: _ => simp [Py.raise]

/-- So no route is ever returned, and the claim fails in every state in which the generator runs. -/
theorem C33_no_route (S : Settings) (s : IterState) (r : Nat) : (nextBestStateless S s).1 ≠ .ok r := by
  intro e
  replace e := eq_of_fst e
  generalize (nextBestStateless S s).2 = s' at e
  unfold nextBestStateless at e
  rcases e1 : openGenerator S s with ⟨x | g, s1⟩
  · rw [Py.bind_error e1] at e; cases e
  · rw [Py.bind_ok e1] at e
    change (drain S g.1 g.2 >>= _) s1 = _ at e
    rcases e2 : drain S g.1 g.2 s1 with ⟨x | cand, s2⟩
    · rw [Py.bind_error e2] at e; cases e
    · have h := C33_outcome_partial S s s1 s2 g cand e1 e2
      unfold nextBestStateless at h
      rw [Py.bind_ok e1] at h
      change (drain S g.1 g.2 >>= _) s1 = _ at h
      rw [e] at h
      cases h

/-- C33 is false already for one vehicle and two trips. -/
theorem C33_claim_fails : ¬ BestStatelessWorks pairSettings := by
  intro hp
  have e1 : openGenerator pairSettings pair0 = (.ok ([(0, 0), (0, 1)], []), (openGenerator pairSettings pair0).2) :=
    eq_of_fst (by decide +kernel)
  have e2 : drain pairSettings [(0, 0), (0, 1)] [] (openGenerator pairSettings pair0).2 =
      (.ok [1, 2], (drain pairSettings [(0, 0), (0, 1)] [] (openGenerator pairSettings pair0).2).2) := eq_of_fst (by decide +kernel)
  obtain ⟨r, _, hr, _⟩ := (hp pair0 _ _ _ _ e1 e2).2 (by simp)
  exact C33_no_route pairSettings pair0 r hr

end Jinete
