import Verif.Proofs.FootRoute
import Verif.Proofs.Values

/-!
# Objectives, criteria, insertion strategies and local search strategies stay in their region
-/

set_option autoImplicit false

namespace Jinete

namespace Foot

open Region

variable {α β : Type} {b n : Region} {E : Env}

/-! ## Objectives and criteria -/

theorem distanceWalk {u : Option Nat} : ∀ (k : Nat) (s : Option Nat) (a : ℚ) {n : Region},
    Foot0 b n (Jinete.distanceWalk E u k s a) := by
  intro k
  induction k with
  | zero => exact fun _ _ _ => raise _
  | succ k ih =>
    intro s a n
    refine ite (pure0 _) (then0 (unwrap fun _ _ _ _ => trivial) fun _ _ _ => asking fun h c g => ?_)
    split
    · exact pure0 _
    · exact ih _ _

/-- What an objective is asked about lies in the region. -/
def InO (b n : Region) : Optimizable → Prop
  | .result l => ∀ r ∈ l, InR b n r
  | .planning l => ∀ r ∈ l, InR b n r
  | .route r => InR b n r
  | .stop s => InS b n s
  | .plannedTrip p => InP b n p
  | .tuple _ => True

theorem objectivePlannedTrip {k : Objective} {p : Nat} (hp : InP b n p) : Foot0 b n (k.plannedTrip E p) := by
  cases k with
  | dialARide => exact asking fun _ _ _ => then0 (distanceWalk _ _ _) fun _ _ _ => pure0 _
  | taxiSharing => exact asking fun _ _ g => ite (pure0 _) (then0 (ptDuration (hp.up g)) fun _ _ _ => pure0 _)
  | hashCode => exact asking fun _ _ g => ite (pure0 _) (then0 (pickupTime (hp.up g)) fun _ _ _ => pure0 _)

theorem objectiveStop {k : Objective} {s : Nat} (hs : InS b n s) : Foot0 b n (k.stop E s) :=
  asking fun _ c g => then0 (mapEach0 _ fun p hp _ l => objectivePlannedTrip (((c.stop s (hs.up g)).picks p hp).up l)) fun _ _ _ => pure0 _

theorem objectiveRoute {k : Objective} {r : Nat} (hr : InR b n r) : Foot0 b n (k.route E r) := by
  refine asking fun h c g => ?_
  cases k with
  | dialARide => exact pure0 _
  | taxiSharing => exact then0 (mapEach0 _ fun s hs _ l => objectiveStop ((c.route r (hr.up g) s hs).up l)) fun _ _ _ => pure0 _
  | hashCode => exact then0 (mapEach0 _ fun s hs _ l => objectiveStop ((c.route r (hr.up g) s hs).up l)) fun _ _ _ => pure0 _

theorem objectivePlanning {k : Objective} {l : List Nat} (hl : ∀ r ∈ l, InR b n r) : Foot0 b n (k.planning E l) :=
  then0 (mapEach0 _ fun r hr _ l' => objectiveRoute ((hl r hr).up l')) fun _ _ _ => pure0 _

theorem objective {k : Objective} {x : Optimizable} (hx : InO b n x) : Foot0 b n (k.value E x) := by
  cases x with
  | result l => exact objectivePlanning hx
  | planning l => exact objectivePlanning hx
  | route r => exact objectiveRoute hx
  | stop s => exact objectiveStop hx
  | plannedTrip p => exact objectivePlannedTrip hx
  | tuple v => exact pure0 _

theorem InO.up {n' : Region} {x : Optimizable} (hx : InO b n x) (l : n.Le n') : InO b n' x := by
  cases x with
  | result r => exact fun q hq => InR.up (hx q hq) l
  | planning r => exact fun q hq => InR.up (hx q hq) l
  | route r => exact InR.up hx l
  | stop s => exact InS.up hx l
  | plannedTrip p => exact InP.up hx l
  | tuple v => trivial

variable {K : Type}

theorem keyed {key : α → M K} {P : Region → α → Prop} (hP : ∀ n n' a, Region.Le n n' → P n a → P n' a)
    (hk : ∀ n' a, n.Le n' → P n' a → Foot0 b n' (key a)) {l : List α} (hl : ∀ a ∈ l, P n a) :
    Foot b n (keyed key l) fun n' xs => ∀ x ∈ xs, P n' x.1 :=
  mapEach (Q := fun n' (x : α × K) => P n' x.1) (fun _ _ _ l h => hP _ _ _ l h) l n fun a ha n' l' =>
    then0 (hk n' a l' (hP _ _ _ l' (hl a ha))) fun _ _ l'' => pure fun _ l3 => hP _ _ _ ((l'.trans l'').trans l3) (hl a ha)

theorem pick_mem [LinearOrder K] {d : Direction} {xs : List (α × K)} {a : α} (e : d.pick xs = some a) : ∃ x ∈ xs, x.1 = a := by
  have key : ∀ (f : α × K → α × K → Prop) [∀ x y, Decidable (f x y)] (l : List (α × K)) (x : α × K),
      l.foldl (fun best y => if f best y then y else best) x ∈ x :: l := by
    intro f _ l
    induction l with
    | nil => intro x; simp
    | cons y l ih =>
      intro x
      simp only [List.foldl_cons]
      split_ifs
      · exact List.mem_cons_of_mem _ (ih y)
      · rcases List.mem_cons.1 (ih x) with h | h
        · rw [h]; simp
        · simp [h]
  cases d with
  | maximization =>
    cases xs with
    | nil => cases e
    | cons x l =>
      have e' : some (l.foldl (fun best y => if best.2 < y.2 then y else best) x).1 = some a := e
      exact ⟨_, key (fun x y => x.2 < y.2) l x, Option.some.inj e'⟩
  | minimization =>
    cases xs with
    | nil => cases e
    | cons x l =>
      have e' : some (l.foldl (fun best y => if y.2 < best.2 then y else best) x).1 = some a := e
      exact ⟨_, key (fun x y => y.2 < x.2) l x, Option.some.inj e'⟩

theorem bestOf [LinearOrder K] {d : Direction} {key : α → M K} {P : Region → α → Prop} (hP : ∀ n n' a, Region.Le n n' → P n a → P n' a)
    (hk : ∀ n' a, n.Le n' → P n' a → Foot0 b n' (key a)) {l : List (Option α)} (hl : ∀ a, some a ∈ l → P n a) :
    Foot b n (bestOf d key l) fun n' x => ∀ a, x = some a → P n' a :=
  bind (keyed hP hk (l := l.filterMap id) fun a ha => hl a (by simpa using ha)) fun n' xs _ hxs => pure fun _ l a e => by
    obtain ⟨x, hx, rfl⟩ := pick_mem e
    exact hP _ _ _ l (hxs x hx)

theorem best {k : Objective} {l : List (Option Optimizable)} (hl : ∀ x, some x ∈ l → InO b n x) : Foot0 b n (k.best E l) :=
  (bestOf (P := fun n' x => InO b n' x) (fun _ _ _ l h => InO.up h l) (fun _ _ _ h => objective h) hl).any

theorem criterionValue {k : Criterion} {r : Nat} (hr : InR b n r) : Foot0 b n (k.value E r) := by
  cases k with
  | earliestLastDeparture => exact bind (lastStop hr) fun _ _ _ hs => departure hs
  | shortestAverageDuration =>
    exact asking fun _ c g => ite (pure0 _) (then0 (mapEach0 _ fun p hp _ l => ptDuration ((routePlannedTrips_in c (hr.up g) p hp).up l)) fun _ _ _ => pure0 _)
  | shortestTime => exact routeDuration hr
  | longestTime => exact routeDuration hr
  | longestUtilTime => exact asking fun _ _ _ => pure0 _
  | hashCode =>
    exact asking fun _ c g => then0 (mapEach0 _ fun p hp _ l => asking fun _ _ g' => then0 (pickupTime (((routePlannedTrips_in c (hr.up g) p hp).up l).up g'))
      fun _ _ _ => pure0 _) fun _ _ _ => pure0 _

theorem scoring {k : Criterion} {r : Nat} (hr : InR b n r) : Foot0 b n (k.scoring E r) :=
  then0 (routeFeasible hr) fun _ _ l => ite (pure0 _) (then0 (criterionValue (hr.up l)) fun _ _ _ => pure0 _)

theorem criterionBest {k : Criterion} {l : List (Option Nat)} (hl : ∀ x, some x ∈ l → InR b n x) :
    Foot b n (k.best E l) fun n' x => ∀ a, x = some a → InR b n' a :=
  bestOf (P := fun n' x => InR b n' x) (fun _ _ _ l h => InR.up h l) (fun _ _ _ h => scoring h) hl

theorem mem_sortKeyed {le : K → K → Bool} {xs : List (α × K)} {x : α × K} (hx : x ∈ sortKeyed le xs) : x ∈ xs := by
  have ins : ∀ (y : α × K) (l : List (α × K)), x ∈ insertKeyed le y l → x = y ∨ x ∈ l := by
    intro y l
    induction l with
    | nil => intro h; left; simpa [insertKeyed] using h
    | cons z l ih =>
      intro h
      unfold insertKeyed at h
      split_ifs at h
      · simpa using h
      · rcases List.mem_cons.1 h with h | h
        · right; simp [h]
        · rcases ih h with h | h
          · exact .inl h
          · right; simp [h]
  induction xs with
  | nil => exact hx
  | cons y l ih =>
    rcases ins y _ hx with h | h
    · simp [h]
    · exact List.mem_cons_of_mem _ (ih h)

theorem criterionSorted {k : Criterion} {l : List Nat} (hl : ∀ x ∈ l, InR b n x) :
    Foot b n (k.sorted E l) fun n' xs => ∀ x ∈ xs, InR b n' x :=
  bind (keyed (P := fun n' x => InR b n' x) (fun _ _ _ l h => InR.up h l) (fun _ _ _ h => scoring h) hl) fun n' xs _ hxs =>
    pure fun _ l a ha => by
      obtain ⟨x, hx, rfl⟩ := List.mem_map.1 ha
      exact (hxs x (mem_sortKeyed hx)).up l

/-! ## Insertion strategies -/

theorem maxByDuration {l : List Nat} (hl : ∀ p ∈ l, InP b n p) : Foot b n (maxByDuration E l) fun n' x => ∀ p, x = some p → InP b n' p := by
  refine bind (mapEach (Q := fun n' x => InP b n' x.1) (fun _ _ _ l h => InP.up h l) l n fun p hp n' l' =>
    then0 (ptDuration ((hl p hp).up l')) fun _ _ l'' => pure fun _ l3 => (((hl p hp).up l').up l'').up l3) fun n' xs _ hxs => pure fun _ l p e => ?_
  have e' : Direction.maximization.pick xs = some p := by
    rw [← e]; cases xs <;> rfl
  obtain ⟨x, hx, rfl⟩ := pick_mem e'
  exact (hxs x hx).up l

theorem shiftStop {r i : Nat} (hr : InR b n r) : Foot0 b n (shiftStop E r i) := by
  refine bind (routeStops hr) fun n1 l l1 hl => bind (index (Q := fun n' s => InS b n' s) fun a ha _ l => (hl a ha).up l) fun n2 s l2 hs => ?_
  refine asking fun h c g => bind (maxByDuration fun p hp => (c.stop s (hs.up g)).picks p hp) fun n3 x l3 hx => ?_
  cases x with
  | none => exact pure0 _
  | some p =>
    have hs3 := (hs.up g).up l3
    refine then0 (starting hs3) fun n4 _ l4 => then0 (ptDuration ((hx p rfl).up l4)) fun n5 _ l5 => ?_
    refine then0 (setStarting ((hs3.up l4).up l5)) fun n6 _ l6 => flushSome fun y hy => ?_
    exact (hl y (List.mem_of_mem_drop hy)).up (l2.trans (g.trans (l3.trans (l4.trans (l5.trans l6)))))

theorem shiftLoop {r lo : Nat} : ∀ (k : Nat) {n : Region}, InR b n r → Foot0 b n (shiftLoop E r lo k)
  | 0, _, _ => pure0 _
  | k + 1, _, hr => then0 (shiftStop hr) fun _ _ l => shiftLoop k (hr.up l)

theorem adjustDepot {r : Nat} (hr : InR b n r) : Foot0 b n (adjustDepot E r) := by
  refine bind (routeStops hr) fun n1 l l1 hl => bind (index (Q := fun n' s => InS b n' s) fun a ha _ l => (hl a ha).up l) fun n2 s1 l2 hs1 => ?_
  refine then0 (waitingTime hs1) fun n3 _ l3 => ite ?_ (pure0 _)
  refine bind (index (Q := fun n' s => InS b n' s) fun a ha _ l => (hl a ha).up (l2.trans (l3.trans l))) fun n4 s0 l4 hs0 => ?_
  refine then0 (waitingTime ((hs1.up l3).up l4)) fun n5 _ l5 => then0 (setStarting (hs0.up l5)) fun n6 _ l6 => ?_
  refine then0 (flushOne ((hs0.up l5).up l6)) fun n7 _ l7 => flushOne (hs1.up (l3.trans (l4.trans (l5.trans (l6.trans l7)))))

theorem improveRideTimes {r idx : Nat} (hr : InR b n r) : Foot0 b n (improveRideTimes E r idx) := by
  refine then0 (adjustDepot hr) fun n1 _ l1 => then0 (routeFeasible (hr.up l1)) fun n2 _ l2 => ite (pure0 _) ?_
  have hr2 := (hr.up l1).up l2
  refine bind (routeStops hr2) fun n3 l l3 hl => then0 (shiftLoop _ (hr2.up l3)) fun n4 _ l4 => ?_
  refine then0 (flushRoute ((hr2.up l3).up l4)) fun n5 _ l5 => then0 (routeFeasible (((hr2.up l3).up l4).up l5)) fun _ _ _ => pure0 _

theorem buildPickup {r t i : Nat} (hr : InR b n r) : Foot b n (buildPickup E r t i) fun n' s => InS b n' s :=
  asking fun _ c g => bind (index (Q := fun n' s => InS b n' s) fun a ha _ l => (c.route r (hr.up g) a ha).up l) fun _ _ _ hs =>
    newStop fun q e => by cases e; exact hs

theorem buildDelivery {r t i j u : Nat} (hr : InR b n r) (hu : InS b n u) : Foot b n (buildDelivery E r t i j u) fun n' s => InS b n' s :=
  asking fun _ c g => bind (Q := fun n' s => InS b n' s) (ite (pure fun _ l => (hu.up g).up l) (index fun a ha _ l => (c.route r (hr.up g) a ha).up l))
    fun _ _ _ hs => newStop fun q e => by cases e; exact hs

theorem computeOne {r t i j : Nat} (hr : InR b n r) : Foot b n (computeOne E r t i j) fun n' r' => InR b n' r' := by
  refine bind (cloneRouteIdx hr) fun n1 x l1 hx => bind (buildPickup hx) fun n2 u l2 hu => ?_
  refine bind (buildDelivery (hx.up l2) hu) fun n3 d l3 hd => asking fun h c g => ?_
  refine bind (newPlannedTrip (fun q e => by cases e; exact (hu.up l3).up g) fun q e => by cases e; exact hd.up g) fun n4 p l4 hp => ?_
  have hx4 := hx.up (l2.trans (l3.trans (g.trans l4)))
  exact then0 (appendPlannedTrip hx4 hp) fun n5 _ l5 => then0 (improveRideTimes (hx4.up l5)) fun n6 _ l6 => pure fun _ l7 => ((hx4.up l5).up l6).up l7

theorem computeEach {only : Bool} {r i j : Nat} : ∀ (ts : List Nat) {n : Region}, InR b n r →
    Foot b n (computeEach E only r i j ts) fun n' rs => ∀ r ∈ rs, InR b n' r
  | [], _, _ => pure fun _ _ _ h => (nomatch h)
  | t :: ts, n, hr => by
    refine bind (computeOne hr) fun n1 r' l1 hr' => then0 (m := keepRoute E only r') (ite (routeFeasible hr') (pure0 _)) fun n2 keep l2 => ?_
    refine bind (computeEach ts ((hr.up l1).up l2)) fun n3 rs l3 hrs => pure fun n4 l4 q hq => ?_
    split_ifs at hq
    · rcases List.mem_cons.1 hq with rfl | hq
      · exact ((hr'.up l2).up l3).up l4
      · exact (hrs q hq).up l4
    · exact (hrs q hq).up l4

theorem compute {only : Bool} {r i j : Nat} {ts : List Nat} (hr : InR b n r) :
    Foot b n (compute E only r ts i j) fun n' rs => ∀ r ∈ rs, InR b n' r := then0 assert fun _ _ l => computeEach ts (hr.up l)

theorem computePairs {only : Bool} {r : Nat} {ts : List Nat} : ∀ (ps : List (Nat × Nat)) {n : Region}, InR b n r →
    Foot b n (computePairs E only r ts ps) fun n' rs => ∀ r ∈ rs, InR b n' r
  | [], _, _ => pure fun _ _ _ h => (nomatch h)
  | (i, j) :: ps, n, hr => by
    refine bind (compute hr) fun n1 rs l1 hrs => bind (computePairs ps (hr.up l1)) fun n2 rs' l2 hrs' => pure fun n3 l3 q hq => ?_
    rcases List.mem_append.1 hq with hq | hq
    · exact ((hrs q hq).up l2).up l3
    · exact (hrs' q hq).up l3

theorem computeIntensive {only : Bool} {r : Nat} {ts : List Nat} (hr : InR b n r) :
    Foot b n (computeIntensive E only r ts) fun n' rs => ∀ r ∈ rs, InR b n' r :=
  bind (routeStops hr) fun _ _ l _ => computePairs _ (hr.up l)

theorem computeTail {only : Bool} {r : Nat} {ts : List Nat} (hr : InR b n r) :
    Foot b n (computeTail E only r ts) fun n' rs => ∀ r ∈ rs, InR b n' r :=
  bind (routeStops hr) fun _ _ l _ => compute (hr.up l)

theorem computeSampling {only : Bool} {r : Nat} {ts : List Nat} {count fuel : Nat} {rnd : Nat → Nat → Nat → Nat} (hr : InR b n r) :
    Foot b n (computeSampling E only r ts count rnd fuel) fun n' rs => ∀ r ∈ rs, InR b n' r := by
  refine bind (routeStops hr) fun _ _ l _ => ?_
  split
  · exact computePairs _ (hr.up l)
  · exact raise _

/-! ## Local search strategies -/

theorem checkRoute {r : Nat} (hr : InR b n r) : Foot0 b n (checkRoute E r) :=
  asking fun _ c g => then0 assert fun _ _ l => then0 (timesCheck _ fun s hs => (c.route r (hr.up g) s hs).up l) fun _ _ _ => assert

theorem updateRoutes {rs over : List Nat} (hr : ∀ r ∈ rs, InR b n r) (ho : ∀ r ∈ over, InR b n r) :
    Foot b n (updateRoutes rs over) fun n' l => ∀ r ∈ l, InR b n' r := by
  refine asking fun h c g => ite (pure fun _ l r h => ((hr r h).up g).up l) (pure fun _ l r h => ?_)
  rcases List.mem_append.1 h with h | h
  · exact ((hr r (List.mem_of_mem_filter h)).up g).up l
  · exact ((ho r h).up g).up l

variable {k : Objective}

theorem lastValue {x : Optimizable} (hx : InO b n x) : Foot0 b n (lastValue E k x) :=
  then0 (objective hx) fun _ _ _ => unwrap fun _ _ _ _ => trivial

theorem reallocPairs {d t o : Nat} {v : ℚ} : ∀ (ps : List (Nat × Nat)) (f : Found) {n : Region}, InR b n d → InR b n o →
    (∀ r ∈ f.overwritten, InR b n r) → Foot b n (reallocPairs E k d t o v ps f) fun n' f' => ∀ r ∈ f'.overwritten, InR b n' r
  | [], _, _, _, _, hf => pure fun _ l r h => (hf r h).up l
  | (i, j) :: ps, f, n, hd, ho, hf => by
    refine bind (compute hd) fun n1 ds l1 hds => ?_
    cases ds with
    | nil => exact reallocPairs ps f (hd.up l1) (ho.up l1) fun r h => (hf r h).up l1
    | cons d' ds =>
      refine then0 (lastValue (x := .route d') (hds d' (by simp))) fun n2 w l2 => ?_
      refine reallocPairs ps _ ((hd.up l1).up l2) ((ho.up l1).up l2) fun r h => ?_
      split_ifs at h
      · rcases List.mem_cons.1 h with rfl | h
        · exact (ho.up l1).up l2
        · rw [List.mem_singleton.1 h]; exact (hds d' (by simp)).up l2
      · exact ((hf r h).up l1).up l2

theorem reallocTrips {draw : Nat → Nat → Option (List (Nat × Nat))} {o d : Nat} {v : ℚ} : ∀ (ts : List Nat) (f : Found) (calls : Nat)
    {n : Region}, InR b n d → InR b n o → (∀ r ∈ f.overwritten, InR b n r) →
    Foot b n (reallocTrips E k draw o d v ts f calls) fun n' x => ∀ r ∈ x.1.overwritten, InR b n' r
  | [], _, _, _, _, _, hf => pure fun _ l r h => (hf r h).up l
  | t :: ts, f, calls, n, hd, ho, hf => by
    refine bind (cloneRoute ho) fun n1 o' l1 ho' => then0 (removeTrip ho') fun n2 _ l2 => then0 (flushRoute (ho'.up l2)) fun n3 _ l3 => ?_
    refine then0 (routeFeasible ((ho'.up l2).up l3)) fun n4 _ l4 => ?_
    have l04 := l1.trans (l2.trans (l3.trans l4))
    have ho4 := ho'.up (l2.trans (l3.trans l4))
    refine ite ?_ (reallocTrips ts f calls (hd.up l04) (ho.up l04) fun r h => (hf r h).up l04)
    refine then0 (lastValue (x := .route o') ho4) fun n5 w l5 => bind (routeStops ((hd.up l04).up l5)) fun n6 st l6 _ => ?_
    split
    · exact raise _
    · refine bind (reallocPairs _ f ((hd.up l04).up (l5.trans l6)) (ho4.up (l5.trans l6)) fun r h => ((hf r h).up l04).up (l5.trans l6)) fun n7 f' l7 hf' => ?_
      have l07 := l04.trans (l5.trans (l6.trans l7))
      exact reallocTrips ts f' _ (hd.up l07) (ho.up l07) hf'

theorem reallocRoutes {draw : Nat → Nat → Option (List (Nat × Nat))} {v : ℚ} : ∀ (ps : List (Nat × Nat)) (f : Found) (calls : Nat)
    {n : Region}, (∀ x ∈ ps, InR b n x.1 ∧ InR b n x.2) → (∀ r ∈ f.overwritten, InR b n r) →
    Foot b n (reallocRoutes E k draw v ps f calls) fun n' x => ∀ r ∈ x.1.overwritten, InR b n' r
  | [], _, _, _, _, hf => pure fun _ l r h => (hf r h).up l
  | (o, d) :: ps, f, calls, n, hps, hf => by
    obtain ⟨ho, hd⟩ := hps (o, d) (by simp)
    refine then0 (lastValue (x := .route o) ho) fun n1 _ l1 => then0 (lastValue (x := .route d) (InR.up hd l1)) fun n2 _ l2 => asking fun h c g => ?_
    have l0 := l1.trans (l2.trans g)
    refine bind (reallocTrips _ f calls (hd.up l0) (ho.up l0) fun r h => (hf r h).up l0) fun n3 x l3 hx => ?_
    exact reallocRoutes ps _ _ (fun y hy => ⟨(hps y (by simp [hy])).1.up (l0.trans l3), (hps y (by simp [hy])).2.up (l0.trans l3)⟩) hx

theorem mem_permutations2 {l : List Nat} {x : Nat × Nat} (h : x ∈ permutations2 l) : x.1 ∈ l ∧ x.2 ∈ l := by
  obtain ⟨a, ha, h⟩ := List.mem_flatMap.1 h
  obtain ⟨c, hc, rfl⟩ := List.mem_map.1 h
  exact ⟨ha, List.mem_of_mem_filter hc⟩

theorem reallocation {draw : Nat → Nat → Option (List (Nat × Nat))} {rs : List Nat} (hr : ∀ r ∈ rs, InR b n r) :
    Foot b n (reallocation E k draw rs) fun n' l => ∀ r ∈ l, InR b n' r := by
  refine then0 (lastValue (x := .planning rs) hr) fun n1 v l1 => ?_
  refine bind (reallocRoutes _ ⟨v, []⟩ 0 (fun x hx => ⟨(hr _ (mem_permutations2 hx).1).up l1, (hr _ (mem_permutations2 hx).2).up l1⟩)
    fun _ h => (nomatch h)) fun n2 x l2 hx => ?_
  exact updateRoutes (fun r h => ((hr r h).up l1).up l2) hx

theorem removeMany {r i : Nat} : ∀ (m : Nat) {n : Region}, InR b n r → Foot b n (removeMany r i m) fun n' l => ∀ s ∈ l, InS b n' s
  | 0, _, _ => pure fun _ _ _ h => (nomatch h)
  | m + 1, _, hr => by
    refine bind (removeStopAt hr) fun n1 s l1 hs => bind (removeMany m (hr.up l1)) fun n2 l l2 hl => pure fun n3 l3 x hx => ?_
    rcases List.mem_cons.1 hx with rfl | hx
    · exact (hs.up l2).up l3
    · exact (hl x hx).up l3

theorem currentStop {r : Nat} (hr : InR b n r) : Foot b n (currentStop r) fun n' s => InS b n' s :=
  bind (routeStops hr) fun _ _ _ hl => unwrap fun _ e _ l => (hl _ ((List.dropLast_sublist _).mem (List.mem_of_getLast? e))).up l

theorem reinsert {r : Nat} : ∀ (l : List Nat) {n : Region}, InR b n r → (∀ s ∈ l, InS b n s) → Foot0 b n (reinsert r l)
  | [], _, _, _ => pure0 _
  | s :: l, _, hr, hl => by
    refine bind (currentStop hr) fun n1 cur l1 hc => then0 (setPrevious ((hl s (by simp)).up l1) fun h c g q e => by cases e; exact hc.up g) fun n2 _ l2 => ?_
    have l02 := l1.trans l2
    refine bind (insertStop (hr.up l02) ((hl s (by simp)).up l02)) fun n3 _ l3 _ => ?_
    exact reinsert l (hr.up (l02.trans l3)) fun x hx => (hl x (by simp [hx])).up (l02.trans l3)

theorem twoOptCandidate {r i j : Nat} (hr : InR b n r) : Foot b n (twoOptCandidate E r i j) fun n' x => InR b n' x := by
  refine bind (cloneRoute hr) fun n1 r' l1 hr' => bind (routeStops hr') fun n2 l l2 hl => bind (removeMany _ (hr'.up l2)) fun n3 old l3 hold => ?_
  refine then0 (reinsert _ ((hr'.up l2).up l3) fun s hs => hold s (List.mem_of_mem_take (List.mem_reverse.1 hs))) fun n4 _ l4 => ?_
  refine then0 (reinsert _ (((hr'.up l2).up l3).up l4) fun s hs => (hold s (List.mem_of_mem_drop hs)).up l4) fun n5 _ l5 => pure fun _ l6 => ?_
  exact hr'.up (l2.trans (l3.trans (l4.trans (l5.trans l6))))

theorem twoOptPairs {r : Nat} : ∀ (ps : List (Nat × Nat)) (cost : List ℚ) (over : List Nat) {n : Region}, InR b n r → (∀ r ∈ over, InR b n r) →
    Foot b n (twoOptPairs E k r ps cost over) fun n' l => ∀ r ∈ l, InR b n' r
  | [], _, _, _, _, ho => pure fun _ l r h => (ho r h).up l
  | (i, m) :: ps, cost, over, n, hr, ho => by
    refine asking fun h c g => ite (twoOptPairs ps cost over (hr.up g) fun r h => (ho r h).up g) ?_
    refine bind (twoOptCandidate (hr.up g)) fun n1 r' l1 hr' => then0 (routeFeasible hr') fun n2 _ l2 => ?_
    have l02 := g.trans (l1.trans l2)
    refine ite ?_ (twoOptPairs ps cost over (hr.up l02) fun r h => (ho r h).up l02)
    refine then0 (objective (x := .route r') (InR.up hr' l2)) fun n3 v l3 => ?_
    refine ite (twoOptPairs ps v _ (hr.up (l02.trans l3)) fun q h => ?_) (twoOptPairs ps cost over (hr.up (l02.trans l3)) fun r h => (ho r h).up (l02.trans l3))
    rcases List.mem_append.1 h with h | h
    · exact (ho q h).up (l02.trans l3)
    · rw [List.mem_singleton.1 h]; exact (hr'.up l2).up l3

theorem twoOptRoutes : ∀ (rs over : List Nat) {n : Region}, (∀ r ∈ rs, InR b n r) → (∀ r ∈ over, InR b n r) →
    Foot b n (twoOptRoutes E k rs over) fun n' l => ∀ r ∈ l, InR b n' r
  | [], _, _, _, ho => pure fun _ l r h => (ho r h).up l
  | r :: rs, over, n, hr, ho => by
    have h0 := hr r (by simp)
    refine then0 (objective (x := .route r) h0) fun n1 v l1 => bind (routeStops (InR.up h0 l1)) fun n2 st l2 _ => ?_
    refine bind (twoOptPairs _ v over ((InR.up h0 l1).up l2) fun q h => ((ho q h).up l1).up l2) fun n3 over' l3 ho' => ?_
    exact twoOptRoutes rs over' (fun q h => (hr q (by simp [h])).up (l1.trans (l2.trans l3))) ho'

theorem twoOpt {rs : List Nat} (hr : ∀ r ∈ rs, InR b n r) : Foot b n (twoOpt E k rs) fun n' l => ∀ r ∈ l, InR b n' r :=
  bind (twoOptRoutes rs [] hr fun _ h => (nomatch h)) fun _ _ l ho => updateRoutes (fun r h => (hr r h).up l) ho

theorem indexOf {l : List Nat} {x : Nat} : Foot0 b n (indexOf l x) := ite (pure0 _) (raise _)

theorem flipStops {r p o : Nat} {f : Option Nat} (hr : InR b n r) (hp : InS b n p) (ho : InS b n o) (hf : ∀ s, f = some s → InS b n s) :
    Foot0 b n (flipStops r p o f) := by
  refine asking fun h c g => then0 assert fun n1 _ l1 => then0 assert fun n2 _ l2 => then0 indexOf fun n3 i l3 => then0 indexOf fun n4 j l4 => ?_
  have l04 := g.trans (l1.trans (l2.trans (l3.trans l4)))
  refine then0 (setStops (hr.up l04) fun h' c' g' s hs => ?_) fun n5 _ l5 => ?_
  · rcases List.mem_or_eq_of_mem_set hs with hs | rfl
    · rcases List.mem_or_eq_of_mem_set hs with hs | rfl
      · exact c'.route r ((hr.up l04).up g') s hs
      · exact (hp.up l04).up g'
    · exact (ho.up l04).up g'
  have l05 := l04.trans l5
  refine then0 (ifSome fun s e => setPrevious ((hf s e).up l05) fun h' c' g' q e' => by cases e'; exact (hp.up l05).up g') fun n6 _ l6 => ?_
  have l06 := l05.trans l6
  refine then0 (setPrevious (ho.up l06) fun h' c' g' q e' => (c'.stop p ((hp.up l06).up g')).prev q e') fun n7 _ l7 => ?_
  have l07 := l06.trans l7
  refine then0 (setPrevious (hp.up l07) fun h' c' g' q e' => by cases e'; exact (ho.up l07).up g') fun n8 _ l8 => ?_
  refine modify0 fun h' c' g' => ?_
  have := foot_flushStops ((h'.core.route r).stops.drop i) h' c' fun s hs => c'.route r (hr.up (l07.trans (l8.trans g'))) s (List.mem_of_mem_drop hs)
  exact ⟨this.1, this.2.1⟩

theorem oneShiftRejects {r : Nat} {cost : List ℚ} (hr : InR b n r) : Foot0 b n (oneShiftRejects E k r cost) := by
  refine then0 (routeFeasible hr) fun n1 _ l1 => ite (then0 (best fun x hx => ?_) fun _ _ _ => pure0 _) (pure0 _)
  simp only [List.mem_cons, Option.some.injEq, List.not_mem_nil, or_false] at hx
  rcases hx with rfl | rfl
  · trivial
  · exact InR.up hr l1

theorem oneShiftAt {r i : Nat} {cost : List ℚ} (hr : InR b n r) : Foot0 b n (oneShiftAt E k r i cost) := by
  refine bind (routeStops hr) fun n1 l l1 hl => bind (index (Q := fun n' s => InS b n' s) fun a ha _ l => (hl a ha).up l) fun n2 s1 l2 hs1 => ?_
  refine bind (index (Q := fun n' s => InS b n' s) fun a ha _ l => (hl a ha).up (l2.trans l)) fun n3 s2 l3 hs2 => asking fun h c g => ite (pure0 _) ?_
  have hr4 := hr.up (l1.trans (l2.trans (l3.trans g)))
  have h1 := hs1.up (l3.trans g)
  have h2 := hs2.up g
  have h3 : ∀ s, l[i + 2]? = some s → InS b (of h.core) s := fun s e => (hl s (List.mem_of_getElem? e)).up (l2.trans (l3.trans g))
  refine then0 (flipStops hr4 h1 h2 h3) fun n5 _ l5 => then0 (oneShiftRejects (hr4.up l5)) fun n6 _ l6 => ?_
  have l56 := l5.trans l6
  exact ite (then0 (flipStops (hr4.up l56) (h2.up l56) (h1.up l56) fun s e => (h3 s e).up l56) fun _ _ _ => pure0 _)
    (objective (x := .route r) (InR.up hr4 l56))

theorem oneShiftLoop {r : Nat} : ∀ (l : List Nat) (cost : List ℚ) {n : Region}, InR b n r → Foot0 b n (oneShiftLoop E k r l cost)
  | [], _, _, _ => pure0 _
  | _ :: l, _, _, hr => then0 (oneShiftAt hr) fun _ _ l1 => oneShiftLoop l _ (hr.up l1)

theorem oneShiftRoute {r : Nat} (hr : InR b n r) : Foot0 b n (oneShiftRoute E k r) :=
  then0 (objective (x := .route r) hr) fun _ _ l1 => bind (routeStops (InR.up hr l1)) fun _ _ l2 _ => oneShiftLoop _ _ ((InR.up hr l1).up l2)

theorem oneShift {rs : List Nat} (hr : ∀ r ∈ rs, InR b n r) : Foot b n (oneShift E k rs) fun n' l => ∀ r ∈ l, InR b n' r :=
  then0 (forEach _ _ fun r h _ l => oneShiftRoute ((hr r h).up l)) fun _ _ l => pure fun _ l' r h => ((hr r h).up l).up l'

end Foot

end Jinete
