import Verif.Proofs.SmallJobs
import Verif.Props.Whole

/-!
# Small jobs are solved without sampling (C113)

`sample_index_pairs` yields all pairs when there are at most `count` of them. While a job of `n` trips is planned no route has more
than `2 * n + 2` stops. So for small jobs insertion with the sampling strategy, and reallocation, try all pairs of positions,
and their outcome does not depend on the random numbers.
-/

set_option autoImplicit false

namespace Jinete

variable {E : Env} {fleet job : List Nat} {W : List Nat → Prop} {K : Nat → List Duty → Prop} {md : Mode} {k : Objective} {c0 : Core} {rs0 : List Nat}

local notation "V" => plannedValued E fleet job W K md k c0 rs0

/-! ## Samples that are all pairs -/

theorem ncr_two_le {m n count : Nat} (hm : m ≤ n) (hn : 2 ≤ n) (hc : n.choose 2 ≤ count) : ncr m 2 ≤ count := by
  have h1 : 1 ≤ n.choose 2 := Nat.choose_pos hn
  rcases m with _ | _ | m
  · have : ncr ((0 : Nat) : Int) 2 = 1 := by decide +kernel
    omega
  · have : ncr ((0 + 1 : Nat) : Int) 2 = 1 := by decide +kernel
    omega
  · have h2 := C26_ncr (m + 1 + 1) 2 (by omega)
    have h3 : (m + 1 + 1).choose 2 ≤ n.choose 2 := Nat.choose_le_choose 2 hm
    rw [show ((2 : Nat) : Int) = 2 from rfl] at h2
    rw [h2]
    exact_mod_cast le_trans h3 hc

/-- Whatever the random numbers and however few of them there are, the sample is all pairs. -/
theorem sampleIndexPairs_all {m n count : Nat} (hm : m ≤ n) (hn : 2 ≤ n) (hc : n.choose 2 ≤ count) (rnd : Nat → Nat → Nat → Nat) (fuel : Nat) :
    sampleIndexPairs m count rnd fuel = some (combinations2 m) := if_pos (ncr_two_le hm hn hc)

theorem sampling_sameUpTo {n count : Nat} (hn : 2 ≤ n) (hc : n.choose 2 ≤ count) (fuel : Nat) (rnd : Nat → Nat → Nat → Nat → Nat) :
    Strategy.SameUpTo n (.sampling count fuel rnd) .intensive := by
  intro E f j r ts h hr
  show computeSampling E f r ts count (rnd j) fuel h = computeIntensive E f r ts h
  unfold computeSampling computeIntensive
  refine bind_agree rfl fun l h1 e => ?_
  have hl : l = (h.core.route r).stops := by
    unfold routeStops at e
    cases e
    rfl
  subst hl
  rw [sampleIndexPairs_all hr hn hc]

/-- Draws that cannot be told apart on routes with at most `n` stops. -/
def Draws.SameUpTo (n : Nat) (D D' : Draws) : Prop := D.order = D'.order ∧ ∀ c m, m ≤ n → D.pairs c m = D'.pairs c m

theorem sampleDraw_sameUpTo {n : Nat} (hn : 2 ≤ n) (hc : n.choose 2 ≤ 128) (order : List Nat → List Nat) (rnd : Nat → Nat → Nat → Nat → Nat)
    (fuel : Nat) : Draws.SameUpTo n ⟨order, sampleDraw rnd fuel⟩ ⟨order, allPairs⟩ :=
  ⟨rfl, fun _ _ hm => sampleIndexPairs_all hm hn hc _ _⟩

/-! ## The algorithms -/

theorem idle_movable : Movable E job fun _ ds => ds.countP Duty.idle ≤ 2 where
  insert _ _ _ _ _ h _ hij hj := by rw [Grown.idle (.insert .refl hij hj)]; exact h
  remove _ _ _ h := le_trans (List.filter_sublist.countP_le) h

theorem Proper.idle {v : Nat} {ds : List Duty} (h : Proper E v ds) : ds.countP Duty.idle ≤ 2 := by
  obtain ⟨mid, rfl, hm⟩ := h
  have : mid.countP Duty.idle = 0 := by
    rw [List.countP_eq_zero]
    intro d hd
    obtain ⟨t, rfl | rfl⟩ := hm d hd <;> simp [Duty.idle, pickDuty, dropDuty]
  simp only [List.countP_cons, List.countP_append, this, List.countP_nil]
  split <;> split <;> omega

theorem reallocationPass_agree (F : RunSetting E fleet job W K md) (hK : ∀ v ds, K v ds → ds.countP Duty.idle ≤ 2) {D' D : Heap → Draws}
    (hD : ∀ h, (D h).OK) (hs : ∀ h, (D' h).SameUpTo (2 * job.length + 2) (D h)) {X : Err → Prop} (b : List Nat) (s : Heap)
    (hg : (V).Good s) (ha : (V).Alive s b) : (V).Agree X s (reallocationPass E k D' b) (reallocationPass E k D b) := by
  obtain ⟨c, s1, e, f, a, _⟩ := pass_improves (k := k) F hD b s hg ha
  refine ⟨?_, .of_ok e ⟨f, a⟩⟩
  have p : PlanInv E fleet job W K md s b := ha
  obtain ⟨l, h', e', _⟩ := improve_reallocation (k := k) F.env F.timeout p.inv (fun r hr => hr) (p.vehicles.nodup_iff.2 F.fleetNodup) p.trips
    p.single (hD s).order (hD s).pairs
  unfold reallocationPass
  rw [(hs s).1, e' (D s).pairs fun _ _ _ => rfl, e' (D' s).pairs fun r hr c => (hs s).2 c _ (stops_le (p.wf r hr) (hK _ _ (p.kept r hr))
    fun t ht => p.job t (List.mem_flatMap.2 ⟨r, hr, ht⟩))]

theorem localSearchOptimize_agree (F : RunSetting E fleet job W K md) (hK : ∀ v ds, K v ds → ds.countP Duty.idle ≤ 2) {D' D : Heap → Draws}
    (hD : ∀ h, (D h).OK) (hs : ∀ h, (D' h).SameUpTo (2 * job.length + 2) (D h)) {threshold fuel : Nat} {X : Err → Prop} (hX : X .outOfFuel)
    {r : List Nat} {s : Heap} (hg : (V).Good s) (ha : (V).Alive s r) :
    (V).Agree X s (localSearchOptimize E k D' threshold fuel (some r)) (localSearchOptimize E k D threshold fuel (some r)) := by
  rw [localSearchOptimize_some (ha.ne_nil F.some), localSearchOptimize_some (ha.ne_nil F.some)]
  exact logged_agree (fun r s => logResult_safe F.env F.some r s)
    ⟨localSearch_agree (X := fun _ => True) (reallocationPass_agree F hK hD hs) fuel r 0 s hg ha,
      (localSearch_safe (pass_improves F hD) fuel r 0 s hg ha).monoX (by rintro e rfl; exact hX)⟩

theorem insertionOptimize_agree (F : RunSetting E fleet job W K md) (G : InsertSetting E fleet job W K)
    (hK : ∀ v ds, K v ds → ds.countP Duty.idle ≤ 2) {S : Heap → Settings} (hS : ∀ h, (S h).Of E fleet job) {st : Heap → Strategy}
    (hst : ∀ h, Strategy.SameUpTo (2 * job.length + 2) (st h) (S h).strategy) {fuel : Nat} {X : Err → Prop}
    (hX : ∀ e, InsertErr S fuel job e → X e) {initial : Option (List Nat)} {s : Heap} (hg : (V).Good s)
    (ha : ∀ r, initial = some r → (V).Alive s r) :
    (V).Agree X s (insertionOptimize E k (fun h => { S h with strategy := st h }) fuel initial) (insertionOptimize E k S fuel initial) := by
  refine ⟨?_, insertionOptimize_safe F G hS hX hg ha⟩
  refine bind_agree ?_ fun _ _ _ => rfl
  have hp : ∀ rs, initial = some rs → PlanInv E fleet job W K md s rs := ha
  have hS' := hS s
  have hstart : ∀ rs, initial = some rs → Startable (S s) s rs := fun rs e => (hp rs e).start hS'
  obtain ⟨h1, h2, h3, hF, hn⟩ := hS'
  have := insertionAlgorithm_agree (S := S s) (st := st s) (md := md) (h0 := s) (initial := initial) (by rw [h1]; exact F.env) hF
    ⟨by rw [h2]; exact F.fleetNodup, by rw [h3]; exact G.jobNodup⟩ hn (by rw [h1]; exact F.timeout)
    (fun rs e => ⟨hstart rs e, by rw [h1]; exact (hp rs e).inv⟩) (by rw [h3]; exact hst s)
    (fun rs e r hr => hK _ _ ((hp rs e).kept r hr)) fuel
  show insertionPlanning { S s with strategy := st s } initial fuel s = insertionPlanning (S s) initial fuel s
  unfold insertionPlanning
  rw [this]

section Grasp

variable {D' D : Nat → Heap → Draws} {S : Nat → Heap → Settings} {st : Nat → Heap → Strategy} {threshold fuel : Nat} {seeds : Nat → Nat}
  {draw draw' : Nat → Nat → Nat} {episodes firstEpisodes : Nat}

theorem defaultStages_agree (F : RunSetting E fleet job W K md) (G : InsertSetting E fleet job W K)
    (hK : ∀ v ds, K v ds → ds.countP Duty.idle ≤ 2) (hD : ∀ s h, (D s h).OK) (hs : ∀ s h, (D' s h).SameUpTo (2 * job.length + 2) (D s h))
    (hS : ∀ s h, (S s h).Of E fleet job) (hst : ∀ s h, Strategy.SameUpTo (2 * job.length + 2) (st s h) (S s h).strategy) {X : Err → Prop}
    (hX : X .outOfFuel) (seed : Nat) :
    StagesAgree (V) X (defaultStages E k (D' seed) (fun h => { S seed h with strategy := st seed h }) threshold fuel)
      (defaultStages E k (D seed) (S seed) threshold fuel) := by
  refine .cons (fun s r hg ha => localSearchOptimize_agree F hK (hD seed) (hs seed) hX hg ha) (.cons (fun s r hg ha => ?_) .nil)
  refine insertionOptimize_agree F G hK (hS seed) (hst seed) ?_ hg (by rintro _ ⟨⟩; exact ha)
  rintro e (⟨_, rfl, _⟩ | ⟨rfl, _⟩) <;> exact hX

theorem graspOptimize_agree (F : RunSetting E fleet job W K md) (G : InsertSetting E fleet job W K)
    (hK : ∀ v ds, K v ds → ds.countP Duty.idle ≤ 2) (hD : ∀ s h, (D s h).OK) (hs : ∀ s h, (D' s h).SameUpTo (2 * job.length + 2) (D s h))
    (hS : ∀ s h, (S s h).Of E fleet job) (hst : ∀ s h, Strategy.SameUpTo (2 * job.length + 2) (st s h) (S s h).strategy) {s : Heap}
    (hg : (V).Good s) (he : 0 < episodes) (hf : 0 < firstEpisodes) :
    (V).Agree (· = .outOfFuel) s
      (graspOptimize E k D' (fun s h => { S s h with strategy := st s h }) threshold fuel seeds draw draw' episodes firstEpisodes)
      (graspOptimize E k D S threshold fuel seeds draw draw' episodes firstEpisodes) := by
  refine logged_agree (fun r s => logResult_safe F.env F.some r s) (grasp_agree (X := (· = .outOfFuel)) (fun r s => logResult_safe F.env F.some r s) ?_
    (defaultStages_agree (X := (· = .outOfFuel)) F G hK hD hs hS hst rfl) hg he hf)
  intro seed s hg
  refine insertionOptimize_agree F G hK (hS seed) (hst seed) ?_ hg (fun _ e => nomatch e)
  rintro e (⟨_, rfl, _⟩ | ⟨rfl, _⟩) <;> rfl

end Grasp

/-! ## C113 -/

/-- **C113, insertion.** If there are at most `count` pairs of positions in a route with two stops per trip of the job and
two more, insertion with the sampling strategy is insertion with the intensive one: the same outcome and the same final
state, whatever the random numbers and even if there are none. -/
theorem C113_insertion_without_sampling {S : Settings} (hE : EnvOK S.env) (hF : Fair { S with strategy := .intensive }) (hc : Clean S)
    (hn : 0 < S.randomized) {count : Nat} (hcount : (2 * S.job.length + 2).choose 2 ≤ count) {h0 : Heap} {initial : Option (List Nat)}
    (hs : ∀ rs, initial = some rs → Startable S h0 rs ∧ ProperRoutes S.env h0 rs) (sfuel : Nat) (rnd : Nat → Nat → Nat → Nat → Nat) (m : Nat) :
    insertionAlgorithm { S with strategy := .sampling count sfuel rnd } initial m (.initial h0) =
      insertionAlgorithm { S with strategy := .intensive } initial m (.initial h0) := by
  have hs' : Starts { S with strategy := .intensive } .any h0 initial := fun rs e => by
    obtain ⟨⟨h1, h2, h3, h4⟩, _⟩ := hs rs e
    exact ⟨⟨h1, h2, h3, h4⟩, OnePerVehicle.inv ⟨h1, h2.nodup_iff.2 hc.fleet, h3⟩⟩
  exact insertionAlgorithm_agree (S := { S with strategy := .intensive }) (st := .sampling count sfuel rnd) (md := .any) hE hF ⟨hc.fleet, hc.job⟩
    hn (fun h => nomatch h) hs' (sampling_sameUpTo (by omega) hcount sfuel rnd) (fun rs e r hr => ((hs rs e).2 r hr).idle) m

/-- **C113, local search.** Local search with reallocation on a planning of proper routes with few trips does the same
whatever the random numbers of the samples: as if all pairs of positions were tried. -/
theorem C113_local_search_without_sampling (hE : EnvOK E) {h : Heap} (nd : NoDangling h.core) {rs : List Nat} (hne : rs ≠ [])
    (hone : OnePerVehicle E h rs) (hs : ∀ r ∈ rs, SingleVisits (duties h.core r)) (hp : ProperRoutes E h rs)
    (hcount : (2 * (rs.flatMap (tripsOf h.core)).length + 2).choose 2 ≤ 128) (k : Objective) (threshold fuel : Nat)
    {order : Heap → List Nat → List Nat} (ho : ∀ h l, (order h l).Perm l) (rnd : Heap → Nat → Nat → Nat → Nat → Nat) (sfuel : Heap → Nat) :
    localSearchOptimize E k (fun h => ⟨order h, sampleDraw (rnd h) (sfuel h)⟩) threshold fuel (some rs) h =
      localSearchOptimize E k (fun h => ⟨order h, allPairs⟩) threshold fuel (some rs) h := by
  have F : RunSetting E (rs.map fun r => (h.core.route r).vehicle) (rs.flatMap (tripsOf h.core)) (fun _ => True) (fun _ ds => ds.countP Duty.idle ≤ 2)
      .any := ⟨hE, (fun h => nomatch h), by simpa using hne, hone.vehicles, fun _ _ _ _ => trivial, idle_movable⟩
  have p : PlanInv E (rs.map fun r => (h.core.route r).vehicle) (rs.flatMap (tripsOf h.core)) (fun _ => True) (fun _ ds => ds.countP Duty.idle ≤ 2)
      .any h rs := PlanningFor.planned ⟨hone.sound, .refl _, hone.trips, fun _ h => h, hs⟩ hone.vehicles trivial fun r hr => (hp r hr).idle
  exact (localSearchOptimize_agree (k := k) (c0 := h.core) (rs0 := []) (X := fun _ => True) F (fun _ _ h => h)
    (fun h => ⟨ho h, allPairs_good⟩) (fun h => sampleDraw_sameUpTo (by omega) hcount (order h) (rnd h) (sfuel h)) trivial
    ⟨nd, by simp [RoutesKept]⟩ p).1

section GraspSmall

variable {order : Nat → Heap → List Nat → List Nat} {S : Nat → Heap → Settings} {threshold fuel : Nat} {seeds : Nat → Nat}
  {draw draw' : Nat → Nat → Nat} {episodes firstEpisodes : Nat}

/-- **C113, GRASP.** With its default algorithms, and the sampling strategy for insertion, GRASP on a small job does the same
whatever the numbers drawn for sampling: as if all pairs of positions were tried everywhere. -/
theorem C113_grasp_without_sampling (hE : EnvOK E) (hf : fleet ≠ []) (hfn : fleet.Nodup) (hjn : job.Nodup)
    (hcount : (2 * job.length + 2).choose 2 ≤ 128) (ho : ∀ s h l, (order s h l).Perm l)
    (hS : ∀ s h, Settings.Of { S s h with strategy := .intensive } E fleet job) {h : Heap} (nd : NoDangling h.core) (k : Objective)
    (he : 0 < episodes) (hfe : 0 < firstEpisodes) (rnd rnd' : Nat → Heap → Nat → Nat → Nat → Nat → Nat) (sfuel sfuel' : Nat → Heap → Nat) :
    graspOptimize E k (fun s h => ⟨order s h, sampleDraw (rnd s h) (sfuel s h)⟩)
        (fun s h => { S s h with strategy := .sampling 128 (sfuel' s h) (rnd' s h) }) threshold fuel seeds draw draw' episodes firstEpisodes h =
      graspOptimize E k (fun s h => ⟨order s h, allPairs⟩) (fun s h => { S s h with strategy := .intensive }) threshold fuel seeds draw draw'
        episodes firstEpisodes h := by
  have F : RunSetting E fleet job (fun _ => True) (fun _ ds => ds.countP Duty.idle ≤ 2) .any :=
    ⟨hE, (fun h => nomatch h), hf, hfn, fun _ _ _ _ => trivial, idle_movable⟩
  have G : InsertSetting E fleet job (fun _ => True) (fun _ ds => ds.countP Duty.idle ≤ 2) :=
    ⟨hjn, fun _ _ _ => trivial, fun _ _ => List.countP_le_length⟩
  exact (graspOptimize_agree (k := k) (c0 := h.core) (rs0 := []) (S := fun s h => { S s h with strategy := .intensive })
    (st := fun s h => .sampling 128 (sfuel' s h) (rnd' s h)) F G (fun _ _ h => h) (fun s h => ⟨ho s h, allPairs_good⟩)
    (fun s h => sampleDraw_sameUpTo (by omega) hcount (order s h) (rnd s h) (sfuel s h)) hS
    (fun s h => sampling_sameUpTo (by omega) hcount (sfuel' s h) (rnd' s h)) ⟨nd, by simp [RoutesKept]⟩ he hfe).1

end GraspSmall

/-- **C113, termination.** On a small job GRASP returns, whatever is drawn: sampling cannot keep it from ending. -/
theorem C113_grasp_returns (hE : EnvOK E) (hf : fleet ≠ []) (hfn : fleet.Nodup) (hjn : job.Nodup) (hcount : (2 * job.length + 2).choose 2 ≤ 128)
    (threshold : Nat) {k : Objective} (hk : k ≠ .taxiSharing) :
    ∃ n, ∀ (order : Nat → Heap → List Nat → List Nat) (S : Nat → Heap → Settings) (rnd rnd' : Nat → Heap → Nat → Nat → Nat → Nat → Nat)
      (sfuel sfuel' : Nat → Heap → Nat) (fuel : Nat) (seeds : Nat → Nat) (draw draw' : Nat → Nat → Nat) (episodes firstEpisodes : Nat) (h : Heap),
      (∀ s h l, (order s h l).Perm l) → (∀ s h, Settings.Of { S s h with strategy := .intensive } E fleet job) → NoDangling h.core →
      0 < episodes → 0 < firstEpisodes → n ≤ fuel →
      ∃ l h', graspOptimize E k (fun s h => ⟨order s h, sampleDraw (rnd s h) (sfuel s h)⟩)
        (fun s h => { S s h with strategy := .sampling 128 (sfuel' s h) (rnd' s h) }) threshold fuel seeds draw draw' episodes firstEpisodes h =
          (.ok l, h') := by
  obtain ⟨n, hn⟩ := C83_grasp_returns hE hf hfn hjn threshold hk
  refine ⟨n, fun order S rnd rnd' sfuel sfuel' fuel seeds draw draw' episodes firstEpisodes h ho hS nd he hfe hfuel => ?_⟩
  rw [C113_grasp_without_sampling hE hf hfn hjn hcount ho hS nd k he hfe]
  exact hn _ (fun s h => { S s h with strategy := .intensive }) fuel seeds draw draw' episodes firstEpisodes h
    (fun s h => ⟨ho s h, allPairs_good⟩) hS (fun _ _ _ _ _ e => nomatch e) nd he hfe hfuel

/-- With the default of 128 pairs, jobs of up to seven trips are small, and no others. -/
theorem C113_seven_trips (n : Nat) : (2 * n + 2).choose 2 ≤ 128 ↔ n ≤ 7 := by
  constructor
  · intro h
    by_contra hn
    have h1 : (18 : Nat).choose 2 ≤ (2 * n + 2).choose 2 := Nat.choose_le_choose 2 (by omega)
    have h2 : (18 : Nat).choose 2 = 153 := by decide +kernel
    omega
  · intro h
    refine le_trans (Nat.choose_le_choose 2 (show 2 * n + 2 ≤ 16 by omega)) ?_
    decide +kernel

/-! ### Cases -/

/-- Both trips of `swapEnv` for one vehicle. -/
def twoTrips (st : Strategy) : Settings := plainSettings swapEnv [1] [0, 1] st 1

/-- The positions the routes of an outcome visit. -/
def visitedBy (out : Except Err (List Nat) × IterState) : Option (List (List Pos)) :=
  out.1.toOption.map fun l => l.map fun r => (duties out.2.heap.core r).map Duty.pos

/-- Fifteen pairs are enough for two trips: no random number is needed, and the best places are found. -/
example : visitedBy (insertionAlgorithm (twoTrips (.sampling 15 0 fun _ _ _ _ => 99)) none 3 (.initial .empty)) =
      some [[[8], [9], [9], [10], [10], [8]]] ∧
    ∀ sfuel rnd m, insertionAlgorithm (twoTrips (.sampling 15 sfuel rnd)) none m (.initial .empty) =
      insertionAlgorithm (twoTrips .intensive) none m (.initial .empty) :=
  ⟨by decide +kernel, C113_insertion_without_sampling (S := twoTrips .intensive) swapEnv_ok (plainSettings_fair _ _ _ _)
    ⟨by decide, by decide⟩ Nat.one_pos (by decide +kernel) (fun _ e => nomatch e)⟩

/-- The bound is needed: with one pair the outcome depends on the random numbers, and is not that of the intensive strategy;
with five, the algorithm may not end. -/
theorem C113_bound_witness :
    visitedBy (insertionAlgorithm (twoTrips (.sampling 1 5 fun _ _ lo _ => lo)) none 3 (.initial .empty)) =
      some [[[8], [9], [10], [9], [10], [8]]] ∧
    visitedBy (insertionAlgorithm (twoTrips (.sampling 1 5 fun _ k _ hi => if k = 0 then 1 else if k = 1 then 2 else hi)) none 3
      (.initial .empty)) ≠ some [[[8], [9], [10], [9], [10], [8]]] ∧
    visitedBy (insertionAlgorithm (twoTrips .intensive) none 3 (.initial .empty)) = some [[[8], [9], [9], [10], [10], [8]]] ∧
    (insertionAlgorithm (twoTrips (.sampling 5 9 fun _ _ lo _ => lo)) none 3 (.initial .empty)).1.toOption = none := by decide +kernel

theorem swap_proper : ProperRoutes swapEnv swap2 [1, 2] := by
  intro r hr
  simp at hr
  rcases hr with rfl | rfl
  · exact ⟨[pickDuty swapEnv 0, dropDuty swapEnv 0], by decide +kernel, by simp; exact ⟨⟨0, .inl rfl⟩, ⟨0, .inr rfl⟩⟩⟩
  · exact ⟨[], by decide +kernel, by simp⟩

/-- The hypotheses for local search hold; with useless random numbers it finds the same better planning. -/
example : (localSearchOptimize swapEnv .dialARide (fun _ => ⟨id, sampleDraw (fun _ _ _ _ => 99) 0⟩) 1 5 (some [1, 2]) swap2).1 = .ok [6, 7] := by
  have := C113_local_search_without_sampling (order := fun _ => id) swapEnv_ok swap2_noDangling (by simp) swap_one swap_single swap_proper
    (by decide +kernel) .dialARide 1 5 (fun _ _ => .refl _) (fun _ _ _ _ _ => 99) (fun _ => 0)
  rw [this]
  decide +kernel

/-- GRASP with useless random numbers. -/
example : ∃ n, ∀ fuel, n ≤ fuel → ∃ l h', graspOptimize swapEnv .dialARide (fun _ _ => ⟨id, sampleDraw (fun _ _ _ _ => 99) 0⟩)
    (fun _ _ => { swapSettings with strategy := .sampling 128 0 fun _ _ _ _ => 99 }) 1 fuel id (fun a b => a + b) (fun a b => a * b) 1 1 .empty =
      (.ok l, h') := by
  obtain ⟨n, hn⟩ := C113_grasp_returns (fleet := [0, 1]) (job := [0]) swapEnv_ok (by simp) (by simp) (by simp) (by decide +kernel) 1
    (k := .dialARide) (by decide)
  exact ⟨n, fun fuel hfuel => hn (fun _ _ => id) (fun _ _ => swapSettings) (fun _ _ _ _ _ _ => 99) (fun _ _ _ _ _ _ => 99) (fun _ _ => 0)
    (fun _ _ => 0) fuel id (fun a b => a + b) (fun a b => a * b) 1 1 .empty (fun _ _ _ => .refl _) (fun _ _ => swapSettings_of) empty_noDangling
    (by omega) (by omega) hfuel⟩

end Jinete
