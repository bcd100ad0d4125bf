import Verif.Proofs.Footprint
import Mathlib.Data.List.InsertIdx

/-!
# Stops, planned trips, routes and their copies stay in their region
-/

set_option autoImplicit false

namespace Jinete

namespace Foot

open Region

variable {α β : Type} {b n : Region} {E : Env}

/-! ## Stops -/

theorem prevDepartureWith {dep : Nat → M ℚ} {s : Nat} (hd : ∀ n' q, n.Le n' → InS b n' q → Foot0 b n' (dep q)) (hs : InS b n s) :
    Foot0 b n (prevDepartureWith E dep s) := by
  refine asking fun h c g => ?_
  cases e : (h.core.stop s).previous with
  | none => exact pure0 _
  | some p => exact hd _ p g ((c.stop s (hs.up g)).prev p e)

theorem transitTimeWith {dep : Nat → M ℚ} {s : Nat} (hd : ∀ n' q, n.Le n' → InS b n' q → Foot0 b n' (dep q)) (hs : InS b n s) :
    Foot0 b n (transitTimeWith E dep s) :=
  asking fun _ _ g => then0 (prevDepartureWith (fun n' q l hq => hd n' q (g.trans l) hq) (hs.up g)) fun _ _ _ => pure0 _

theorem arrivalWith {dep : Nat → M ℚ} {s : Nat} (hd : ∀ n' q, n.Le n' → InS b n' q → Foot0 b n' (dep q)) (hs : InS b n s) :
    Foot0 b n (arrivalWith E dep s) := by
  refine asking fun h c g => ?_
  cases h.arr s with
  | some v => exact pure0 _
  | none =>
    refine then0 (prevDepartureWith (fun n' q l hq => hd n' q (g.trans l) hq) (hs.up g)) fun n1 _ l1 => ?_
    refine then0 (transitTimeWith (fun n' q l hq => hd n' q ((g.trans l1).trans l) hq) (hs.up (g.trans l1))) fun n2 _ l2 => ?_
    exact then0 (stopMemo (fun _ _ hx => update_below hs.1 hx) (fun _ _ _ => rfl) (fun _ _ _ => rfl) fun _ _ _ => rfl) fun _ _ _ => pure0 _

theorem startingWith {dep : Nat → M ℚ} {s : Nat} (hd : ∀ n' q, n.Le n' → InS b n' q → Foot0 b n' (dep q)) (hs : InS b n s) :
    Foot0 b n (startingWith E dep s) := by
  refine asking fun h c g => ?_
  have ha : ∀ n', n.Le n' → Foot0 b n' (Jinete.arrivalWith E dep s) := fun n' l =>
    arrivalWith (fun n' q l' hq => hd n' q (l.trans l') hq) (hs.up l)
  cases (h.core.stop s).start with
  | some v => exact then0 (ha _ g) fun _ _ _ => pure0 _
  | none => exact then0 (ha _ g) fun _ _ l => then0 (ha _ (g.trans l)) fun _ _ _ => pure0 _

theorem departureF (k : Nat) : ∀ {n : Region} {s : Nat}, InS b n s → Foot0 b n (departureF E k s) := by
  induction k with
  | zero => exact fun _ => raise _
  | succ k ih =>
    intro n s hs
    refine asking fun h c g => ?_
    cases h.dep s with
    | some v => exact pure0 _
    | none =>
      refine then0 (startingWith (fun n' q l hq => ih hq) (hs.up g)) fun n1 _ l1 => ?_
      exact then0 (stopMemo (fun _ _ _ => rfl) (fun _ _ hx => update_below hs.1 hx) (fun _ _ _ => rfl) fun _ _ _ => rfl) fun _ _ _ => pure0 _

theorem departure {s : Nat} (hs : InS b n s) : Foot0 b n (departure E s) := fun h => departureF h.fuel hs h
theorem arrival {s : Nat} (hs : InS b n s) : Foot0 b n (arrival E s) := fun h => arrivalWith (fun _ _ _ hq => departureF h.fuel hq) hs h
theorem starting {s : Nat} (hs : InS b n s) : Foot0 b n (starting E s) := fun h => startingWith (fun _ _ _ hq => departureF h.fuel hq) hs h

theorem waitingTime {s : Nat} (hs : InS b n s) : Foot0 b n (waitingTime E s) :=
  then0 (starting hs) fun _ _ l => then0 (arrival (hs.up l)) fun _ _ _ => then0 assert fun _ _ _ => pure0 _

theorem capacityF (k : Nat) : ∀ {n : Region} {s : Nat}, InS b n s → Foot0 b n (capacityF E k s) := by
  induction k with
  | zero => exact fun _ => raise _
  | succ k ih =>
    intro n s hs
    refine asking fun h c g => ?_
    cases h.cap s with
    | some v => exact pure0 _
    | none =>
      refine then0 (asking fun h1 c1 g1 => ?_) fun n1 _ l1 => then0 assert fun _ _ _ => then0 (stopMemo (fun _ _ _ => rfl) (fun _ _ _ => rfl)
        (fun _ _ hx => update_below hs.1 hx) fun _ _ _ => rfl) fun _ _ _ => pure0 _
      cases e : (h1.core.stop s).previous with
      | none => exact pure0 _
      | some p => exact ih ((c1.stop s (hs.up (g.trans g1))).prev p e)

theorem capacity {s : Nat} (hs : InS b n s) : Foot0 b n (capacity E s) := fun h => capacityF h.fuel hs h

theorem allPreviousF (k : Nat) : ∀ {n : Region} {s : Nat}, InS b n s → Foot0 b n (allPreviousF k s) := by
  induction k with
  | zero => exact fun _ => raise _
  | succ k ih =>
    intro n s hs
    refine asking fun h c g => ?_
    cases e : (h.core.stop s).previous with
    | none => exact pure0 _
    | some p => exact then0 (ih ((c.stop s (hs.up g)).prev p e)) fun _ _ _ => pure0 _

theorem allPrevious {s : Nat} (hs : InS b n s) : Foot0 b n (allPrevious s) := fun h => allPreviousF h.fuel hs h

theorem appendPickup {s p : Nat} (hs : InS b n s) (hp : InP b n p) : Foot0 b n (appendPickup E s p) :=
  asking fun _ _ g => then0 assert fun _ _ l => modify0 fun h c g' => by
    have k := c.stop s (hs.up ((g.trans l).trans g'))
    refine foot_setStop c hs.1 ⟨k.prev, fun q hq => ?_, k.drops⟩
    rcases List.mem_insert_iff.1 hq with rfl | hq
    · exact hp.up ((g.trans l).trans g')
    · exact k.picks q hq

theorem appendDelivery {s p : Nat} (hs : InS b n s) (hp : InP b n p) : Foot0 b n (appendDelivery E s p) :=
  asking fun _ _ g => then0 assert fun _ _ l => modify0 fun h c g' => by
    have k := c.stop s (hs.up ((g.trans l).trans g'))
    refine foot_setStop c hs.1 ⟨k.prev, k.picks, fun q hq => ?_⟩
    rcases List.mem_insert_iff.1 hq with rfl | hq
    · exact hp.up ((g.trans l).trans g')
    · exact k.drops q hq

theorem stopFeasible {s : Nat} (hs : InS b n s) : Foot0 b n (stopFeasible E s) := by
  refine asking fun h c g => ?_
  cases h.sfeas s with
  | some v => exact pure0 _
  | none =>
    refine then0 (m := Jinete.stopFeasible.body E s) (asking fun h1 c1 g1 => ?_) fun _ _ _ => then0 (stopMemo (fun _ _ _ => rfl) (fun _ _ _ => rfl)
      (fun _ _ _ => rfl) fun _ _ hx => update_below hs.1 hx) fun _ _ _ => pure0 _
    have g2 := g.trans g1
    exact then0 (starting (hs.up g2)) fun _ _ l => ite (pure0 _) (then0 (starting (hs.up (g2.trans l))) fun _ _ l' => ite (pure0 _)
      (then0 (capacity (hs.up ((g2.trans l).trans l'))) fun _ _ _ => ite (pure0 _) (pure0 _)))

theorem flushOne {s : Nat} (hs : InS b n s) : Foot0 b n (Py.modify fun h => flushStop h s) :=
  modify0 fun _ c g => ⟨(foot_flushStop c (hs.up g)).1, (foot_flushStop c (hs.up g)).2.1⟩

theorem flushSome {l : List Nat} (hl : ∀ s ∈ l, InS b n s) : Foot0 b n (Py.modify fun h => flushStops h l) :=
  modify0 fun h c g => by
    have := foot_flushStops l h c fun s hs => (hl s hs).up g
    exact ⟨this.1, this.2.1⟩

theorem setStarting {s : Nat} {v : ℚ} (hs : InS b n s) : Foot0 b n (setStarting s v) :=
  modify0 fun h c g => by
    have k := c.stop s (hs.up g)
    have x := foot_setStop (x := { h.core.stop s with start := some v }) c hs.1 ⟨k.prev, k.picks, k.drops⟩
    have y := foot_flushStop x.2 (show InS b (of h.core) s from hs.up g)
    exact ⟨x.1.trans y.1, y.2.1⟩

/-! ## Planned trips -/

theorem ifSome {o : Option Nat} {f : Nat → M Unit} (hf : ∀ s, o = some s → Foot0 b n (f s)) : Foot0 b n (ifSome o f) := by
  cases o with
  | none => exact pure0 _
  | some s => exact hf s rfl

theorem newPlannedTrip {v t : Nat} {u d : Option Nat} (hu : ∀ q, u = some q → InS b n q) (hd : ∀ q, d = some q → InS b n q) :
    Foot b n (newPlannedTrip E v t u d) fun n' p => InP b n' p := by
  refine asking fun h c g => ?_
  refine bind (m := Py.modify _) (Q := fun n' _ => InP b n' h.core.nPt) ?_ fun n1 _ l1 hp => ?_
  · intro h1 c1 g1
    have k := foot_allocPt (x := ⟨v, t, u, d⟩) c1 ⟨fun q e => (hu q e).up (g.trans g1), fun q e => (hd q e).up (g.trans g1)⟩
    exact ⟨k.1, k.2, fun _ _ => ⟨c.le.p, Nat.lt_of_le_of_lt g1.p (Nat.lt_succ_self _)⟩⟩
  · refine then0 (ifSome fun s e => appendPickup ((hu s e).up (g.trans l1)) hp) fun n2 _ l2 => ?_
    refine then0 (ifSome fun s e => appendDelivery ((hd s e).up ((g.trans l1).trans l2)) (hp.up l2)) fun n3 _ l3 => ?_
    exact pure fun n4 l4 => ((hp.up l2).up l3).up l4

theorem ptPickup {p : Nat} (hp : InP b n p) : Foot b n (ptPickup p) fun n' s => InS b n' s :=
  asking fun _ c g => unwrap fun a e _ l => ((c.pt p (hp.up g)).pick a e).up l

theorem ptDelivery {p : Nat} (hp : InP b n p) : Foot b n (ptDelivery p) fun n' s => InS b n' s :=
  asking fun _ c g => unwrap fun a e _ l => ((c.pt p (hp.up g)).drop a e).up l

theorem pickupTime {p : Nat} (hp : InP b n p) : Foot0 b n (pickupTime E p) := bind (ptPickup hp) fun _ _ _ hs => departure hs
theorem deliveryTime {p : Nat} (hp : InP b n p) : Foot0 b n (deliveryTime E p) := bind (ptDelivery hp) fun _ _ _ hs => starting hs
theorem ptDuration {p : Nat} (hp : InP b n p) : Foot0 b n (ptDuration E p) :=
  then0 (deliveryTime hp) fun _ _ l => then0 (pickupTime (hp.up l)) fun _ _ _ => pure0 _

theorem ptVerdict {f : Heap → Nat → Option Bool} (hf : ∀ h x, x < b.p → f h x = h.pfeas x) :
    Foot0 b n (Py.modify fun h => { h with pfeas := f h }) :=
  modify0 fun h c _ => ⟨spared_memo (fun _ _ => rfl) (fun _ _ => rfl) (fun _ _ => rfl) (fun _ _ => rfl) (hf h) fun _ _ => rfl, c⟩

theorem ptFeasible {p : Nat} (hp : InP b n p) : Foot0 b n (ptFeasible E p) := by
  refine asking fun h c g => ?_
  cases h.pfeas p with
  | some v => exact pure0 _
  | none =>
    refine then0 (m := Jinete.ptFeasible.body E p) ?_ fun _ _ _ => then0 (ptVerdict fun _ _ hx => update_below hp.1 hx) fun _ _ _ => pure0 _
    have hp0 := hp.up g
    refine bind (ptDelivery hp0) fun n1 d l1 hd => then0 (allPrevious hd) fun n2 _ l2 => asking fun h3 c3 g3 => ?_
    have hp3 := ((hp0.up l1).up l2).up g3
    refine then0 assert fun n4 _ l4 => then0 (pickupTime (hp3.up l4)) fun n5 _ l5 => ?_
    refine then0 (deliveryTime ((hp3.up l4).up l5)) fun n6 _ l6 => then0 assert fun n7 _ l7 => ?_
    have hp7 := (((hp3.up l4).up l5).up l6).up l7
    refine bind (ptPickup hp7) fun n8 u l8 hu => then0 (stopFeasible hu) fun n9 _ l9 => ite (pure0 _) ?_
    have hp9 := (hp7.up l8).up l9
    refine bind (ptDelivery hp9) fun n10 d l10 hd => then0 (stopFeasible hd) fun n11 _ l11 => ite (pure0 _) ?_
    exact then0 (ptDuration ((hp9.up l10).up l11)) fun n12 _ l12 => asking fun _ _ _ => ite (pure0 _) (pure0 _)

/-! ## Routes -/

theorem newRouteWith {v : Nat} {l : List Nat} (hl : ∀ s ∈ l, InS b n s) : Foot b n (newRouteWith v l) fun n' r => InR b n' r := by
  refine asking fun h c g => ?_
  refine bind (m := Py.modify _) (Q := fun n' _ => InR b n' h.core.nRoute) ?_ fun n1 _ l1 hr => pure fun _ l2 => hr.up l2
  intro h1 c1 g1
  have k := foot_allocRoute (x := ⟨v, l⟩) c1 fun s hs => (hl s hs).up (g.trans g1)
  exact ⟨k.1, k.2, fun _ _ => ⟨c.le.r, Nat.lt_of_le_of_lt g1.r (Nat.lt_succ_self _)⟩⟩

theorem newRoute {v : Nat} : Foot b n (newRoute E v) fun n' r => InR b n' r := by
  refine bind (newStop fun _ e => (nomatch e)) fun n1 f l1 hf => ?_
  refine bind (newStop fun q e => by cases e; exact hf) fun n2 z l2 hz => newRouteWith fun s hs => ?_
  rcases List.mem_cons.1 hs with rfl | hs
  · exact hf.up l2
  · rw [List.mem_singleton.1 hs]; exact hz

theorem routePlannedTrips_in {h : Heap} (c : Enclosed b h.core) {r : Nat} (hr : InR b (of h.core) r) :
    ∀ p ∈ routePlannedTrips h.core r, InP b (of h.core) p := by
  intro p hp
  obtain ⟨s, hs, hp⟩ := List.mem_flatMap.1 hp
  exact (c.stop s (c.route r hr s hs)).picks p hp

theorem routeStops {r : Nat} (hr : InR b n r) : Foot b n (routeStops r) fun n' l => ∀ s ∈ l, InS b n' s :=
  asking fun _ c g => pure fun _ l s hs => (c.route r (hr.up g) s hs).up l

theorem firstStop {r : Nat} (hr : InR b n r) : Foot b n (firstStop r) fun n' s => InS b n' s :=
  bind (routeStops hr) fun _ _ _ hl => bind (index (Q := fun n' s => InS b n' s) fun a ha _ l => (hl a ha).up l) fun _ _ _ hs =>
    asking fun _ _ g => then0 assert fun _ _ l => pure fun _ l' => ((hs.up g).up l).up l'

theorem lastStop {r : Nat} (hr : InR b n r) : Foot b n (lastStop r) fun n' s => InS b n' s :=
  bind (routeStops hr) fun _ _ _ hl => unwrap fun _ e _ l => (hl _ (List.mem_of_getLast? e)).up l

theorem routeDuration {r : Nat} (hr : InR b n r) : Foot0 b n (routeDuration E r) :=
  bind (lastStop hr) fun _ _ l1 hs => then0 (departure hs) fun _ _ l2 => bind (firstStop ((hr.up l1).up l2)) fun _ _ _ hs =>
    then0 (departure hs) fun _ _ _ => pure0 _

theorem feasiblePlannedTrips {r : Nat} (hr : InR b n r) : Foot0 b n (feasiblePlannedTrips E r) :=
  asking fun _ c g => then0 (mapEach0 _ fun p hp _ l => ptFeasible ((routePlannedTrips_in c (hr.up g) p hp).up l)) fun _ _ _ => pure0 _

theorem routeVerdict {f : Heap → Nat → Option Bool} (hf : ∀ h x, x < b.r → f h x = h.rfeas x) :
    Foot0 b n (Py.modify fun h => { h with rfeas := f h }) :=
  modify0 fun h c _ => ⟨spared_memo (fun _ _ => rfl) (fun _ _ => rfl) (fun _ _ => rfl) (fun _ _ => rfl) (fun _ _ => rfl) (hf h), c⟩

theorem routeFeasible {r : Nat} (hr : InR b n r) : Foot0 b n (routeFeasible E r) := by
  refine asking fun h c g => ?_
  cases h.rfeas r with
  | some v => exact pure0 _
  | none =>
    refine then0 (m := Jinete.routeFeasible.body E r) (asking fun h1 c1 g1 => ?_) fun _ _ _ =>
      then0 (routeVerdict fun _ _ hx => update_below hr.1 hx) fun _ _ _ => pure0 _
    have hr1 := (hr.up g).up g1
    refine bind (firstStop hr1) fun _ _ l1 _ => ite (pure0 _) ?_
    refine bind (firstStop (hr1.up l1)) fun _ _ l2 hs => then0 (arrival hs) fun _ _ l3 => ite (pure0 _) ?_
    have hr3 := ((hr1.up l1).up l2).up l3
    refine bind (lastStop hr3) fun _ _ l4 _ => ite (pure0 _) ?_
    refine bind (lastStop (hr3.up l4)) fun _ _ l5 hs => then0 (departure hs) fun _ _ l6 => ite (pure0 _) ?_
    have hr6 := ((hr3.up l4).up l5).up l6
    refine then0 (routeDuration hr6) fun _ _ l7 => ite (pure0 _) ?_
    exact then0 (feasiblePlannedTrips (hr6.up l7)) fun _ _ _ => ite (pure0 _) (pure0 _)

theorem flushRoute {r : Nat} (hr : InR b n r) : Foot0 b n (flushRoute r) := by
  refine modify0 fun h c g => ?_
  have x1 : Spared b h { h with rfeas := Function.update h.rfeas r none } :=
    spared_memo (fun _ _ => rfl) (fun _ _ => rfl) (fun _ _ => rfl) (fun _ _ => rfl) (fun _ _ => rfl) fun _ hx => update_below hr.1 hx
  obtain ⟨x2, y2, z2⟩ := foot_flushStops (h.core.route r).stops { h with rfeas := Function.update h.rfeas r none } c
    fun s hs => c.route r (hr.up g) s hs
  obtain ⟨x3, y3, z3⟩ := foot_flushPts (b := b) (routePlannedTrips h.core r) _ y2 fun p hp => (routePlannedTrips_in c (hr.up g) p hp).1
  show Spared b h ((routePlannedTrips (flushStops { h with rfeas := Function.update h.rfeas r none } (h.core.route r).stops).core r).foldl flushPt
    (flushStops { h with rfeas := Function.update h.rfeas r none } (h.core.route r).stops)) ∧ Enclosed b ((routePlannedTrips
    (flushStops { h with rfeas := Function.update h.rfeas r none } (h.core.route r).stops).core r).foldl flushPt
    (flushStops { h with rfeas := Function.update h.rfeas r none } (h.core.route r).stops)).core
  rw [z2]
  exact ⟨(x1.trans x2).trans x3, y3⟩

/-- Pointing a stop at another one. -/
theorem setPrevious {s : Nat} {f : Heap → Option Nat} (hs : InS b n s)
    (hf : ∀ h, Enclosed b h.core → n.Le (of h.core) → ∀ q, f h = some q → InS b (of h.core) q) :
    Foot0 b n (Py.modify fun h => h.setStop s { h.core.stop s with previous := f h }) :=
  modify0 fun h c g => foot_setStop c hs.1 ⟨hf h c g, (c.stop s (hs.up g)).picks, (c.stop s (hs.up g)).drops⟩

/-- Other stops for a route. -/
theorem setStops {r : Nat} {f : Heap → List Nat} (hr : InR b n r)
    (hf : ∀ h, Enclosed b h.core → n.Le (of h.core) → ∀ s ∈ f h, InS b (of h.core) s) :
    Foot0 b n (Py.modify fun h => h.setRoute r { h.core.route r with stops := f h }) :=
  modify0 fun h c g => foot_setRoute c hr.1 (hf h c g)

theorem insertStopAt {r i s : Nat} (hr : InR b n r) (hs : InS b n s) : Foot b n (insertStopAt r i s) fun n' x => InS b n' x := by
  refine bind (routeStops hr) fun n1 l l1 hl => bind (index (Q := fun n' s => InS b n' s) fun a ha _ l => (hl a ha).up l) fun n2 f l2 hf => ?_
  refine asking fun h3 c3 g3 => then0 assert fun n4 _ l4 => ?_
  have hs4 := (((hs.up l1).up l2).up g3).up l4
  have hr4 := (((hr.up l1).up l2).up g3).up l4
  refine then0 (setPrevious ((hf.up g3).up l4) fun h c g q e => by cases e; exact hs4.up g) fun n5 _ l5 => ?_
  refine then0 (setStops (hr4.up l5) fun h c g q hq => ?_) fun n6 _ l6 => asking fun h7 c7 g7 => ?_
  · rcases List.eq_or_mem_of_mem_insertIdx hq with rfl | hq
    · exact (hs4.up l5).up g
    · exact c.route r ((hr4.up l5).up g) q hq
  · have ht : ∀ x ∈ (h7.core.route r).stops.drop i, InS b (of h7.core) x := fun x hx =>
      c7.route r (((hr4.up l5).up l6).up g7) x (List.mem_of_mem_drop hx)
    refine then0 (flushSome ht) fun n8 _ l8 => pure fun n9 l9 => ?_
    cases e : ((h7.core.route r).stops.drop i).getLast? with
    | none => exact ((((hs4.up l5).up l6).up g7).up l8).up l9
    | some x => exact ((ht x (List.mem_of_getLast? e)).up l8).up l9

theorem indexPred {l : List Nat} {i : Nat} (hl : ∀ s ∈ l, InS b n s) : Foot b n (indexPred l i) fun n' x => InS b n' x := by
  cases i with
  | zero => exact unwrap fun a e _ l => (hl a (List.mem_of_getLast? e)).up l
  | succ i => exact index fun a ha _ l => (hl a ha).up l

theorem removeStopAt {r i : Nat} (hr : InR b n r) : Foot b n (removeStopAt r i) fun n' x => InS b n' x := by
  refine bind (routeStops hr) fun n1 l l1 hl => bind (indexPred hl) fun n2 p l2 hp => ?_
  refine bind (index (Q := fun n' s => InS b n' s) fun a ha _ l => ((hl a ha).up l2).up l) fun n3 f l3 hf => ?_
  refine then0 (setPrevious hf fun h c g q e => by cases e; exact (hp.up l3).up g) fun n4 _ l4 => ?_
  refine bind (index (Q := fun n' s => InS b n' s) fun a ha _ l => ((((hl a ha).up l2).up l3).up l4).up l) fun n5 x l5 hx => ?_
  have hr5 := ((((hr.up l1).up l2).up l3).up l4).up l5
  refine then0 (setStops hr5 fun h c g q hq => c.route r (hr5.up g) q (List.mem_of_mem_eraseIdx hq)) fun n6 _ l6 => asking fun h7 c7 g7 => ?_
  refine then0 (flushSome fun y hy => c7.route r ((hr5.up l6).up g7) y (List.mem_of_mem_drop hy)) fun n8 _ l8 => pure fun n9 l9 => ?_
  exact (((hx.up l6).up g7).up l8).up l9

theorem insertStop {r s : Nat} (hr : InR b n r) (hs : InS b n s) : Foot b n (insertStop r s) fun n' x => InS b n' x := by
  refine asking fun h c g => ?_
  cases e : (h.core.stop s).previous with
  | none => exact bind (removeStopAt (hr.up g)) fun _ _ l _ => insertStopAt ((hr.up g).up l) ((hs.up g).up l)
  | some p => exact ite (insertStopAt (hr.up g) (hs.up g)) (raise _)

theorem timesCheck : ∀ (l : List Nat) {n : Region}, (∀ s ∈ l, InS b n s) → Foot0 b n (timesCheck E l)
  | [], _, _ => pure0 _
  | [_], _, _ => pure0 _
  | s1 :: s2 :: l, n, hl => then0 (departure (hl s1 (by simp))) fun _ _ l1 => then0 (arrival ((hl s2 (by simp)).up l1)) fun _ _ l2 =>
      ite (timesCheck (s2 :: l) fun s hs => ((hl s (List.mem_cons_of_mem _ hs)).up l1).up l2) (pure0 _)

theorem appendPlannedTrip {r p : Nat} (hr : InR b n r) (hp : InP b n p) : Foot0 b n (appendPlannedTrip E r p) := by
  refine asking fun h c g => then0 assert fun n1 _ l1 => then0 assert fun n2 _ l2 => then0 assert fun n3 _ l3 => ?_
  have l0 := (l1.trans l2).trans l3
  refine then0 (timesCheck _ fun s hs => (c.route r (hr.up g) s hs).up l0) fun n4 _ l4 => then0 assert fun n5 _ l5 => ?_
  have l05 := g.trans (l0.trans (l4.trans l5))
  refine bind (ptPickup (hp.up l05)) fun n6 u l6 hu => bind (insertStop ((hr.up l05).up l6) hu) fun n7 _ l7 _ => ?_
  have l07 := l05.trans (l6.trans l7)
  refine bind (ptDelivery (hp.up l07)) fun n8 u l8 hu => bind (insertStop ((hr.up l07).up l8) hu) fun n9 _ l9 _ => ?_
  refine asking fun h' c' g' => then0 assert fun _ _ l10 => ?_
  exact then0 (timesCheck _ fun s hs => (c'.route r (hr.up (l07.trans (l8.trans (l9.trans g')))) s hs).up l10) fun _ _ _ => assert

theorem removeTripLoop {r t : Nat} : ∀ (i : Nat) {n : Region}, InR b n r → Foot0 b n (removeTripLoop r t i)
  | 0, _, _ => pure0 _
  | i + 1, n, hr => by
    refine bind (routeStops hr) fun n1 l l1 hl => bind (index (Q := fun _ _ => True) fun _ _ _ _ => trivial) fun n2 s l2 _ => asking fun h c g => ?_
    have hr' := ((hr.up l1).up l2).up g
    exact ite (bind (removeStopAt hr') fun _ _ l3 _ => removeTripLoop i (hr'.up l3)) (removeTripLoop i hr')

theorem removeTrip {r t : Nat} (hr : InR b n r) : Foot0 b n (removeTrip E r t) := by
  refine bind (routeStops hr) fun n1 l l1 hl => then0 (removeTripLoop _ (hr.up l1)) fun n2 _ l2 => ?_
  refine bind (routeStops ((hr.up l1).up l2)) fun n3 l' l3 hl' => then0 assert fun n4 _ l4 => asking fun h c g => then0 assert fun n5 _ l5 => ?_
  exact then0 (timesCheck _ fun s hs => (((hl' s hs).up l4).up g).up l5) fun _ _ _ => assert

/-! ## Cloning -/

theorem clonerMapStop : ∀ (l : List Nat) (m : Mapper) {n : Region}, (∀ e ∈ m, InP b n e.2) →
    Foot b n (clonerMapStop E l m) fun n' m' => ∀ e ∈ m', InP b n' e.2
  | [], _, _, hm => pure fun _ l e he => (hm e he).up l
  | p :: l, m, n, hm => by
    refine asking fun h c g => bind (newPlannedTrip (fun _ e => (nomatch e)) fun _ e => (nomatch e)) fun n1 q l1 hq => ?_
    refine clonerMapStop l _ fun e he => ?_
    rcases List.mem_cons.1 he with rfl | he
    · exact hq
    · exact ((hm e he).up g).up l1

theorem clonerLoop {stops : List Nat} {desired : Nat} : ∀ (i : Nat) (m : Mapper) (mis : List Nat) {n : Region}, (∀ e ∈ m, InP b n e.2) →
    Foot b n (clonerLoop E stops desired i m mis) fun n' x => ∀ e ∈ x.2.1, InP b n' e.2
  | 0, _, _, _, hm => pure fun _ l e he => (hm e he).up l
  | i + 1, m, mis, n, hm => by
    unfold Jinete.clonerLoop
    refine ite ?_ (pure fun _ l e he => (hm e he).up l)
    refine bind (index (Q := fun _ _ => True) fun _ _ _ _ => trivial) fun n1 s l1 _ => asking fun h c g => ?_
    exact bind (clonerMapStop _ m fun e he => ((hm e he).up l1).up g) fun n2 m' l2 hm' => clonerLoop i m' _ hm'

theorem clonerInit {r desired : Nat} (hr : InR b n r) : Foot b n (clonerInit E r desired) fun n' x => ∀ e ∈ x.2, InP b n' e.2 := by
  refine bind (routeStops hr) fun n1 l l1 hl => bind (clonerLoop _ [] [] fun _ he => (nomatch he)) fun n2 x l2 hx => ?_
  exact then0 assert fun n3 _ l3 => pure fun n4 l4 e he => ((hx e he).up l3).up l4

theorem lookup_in {m : Mapper} {p q : Nat} (hm : ∀ e ∈ m, InP b n e.2) (e : m.lookup p = some q) : InP b n q := by
  induction m with
  | nil => cases e
  | cons x m ih =>
    obtain ⟨k, v⟩ := x
    rw [List.lookup_cons] at e
    cases ek : p == k with
    | true => rw [ek] at e; cases e; exact hm (k, q) (by simp)
    | false => rw [ek] at e; exact ih (fun y hy => hm y (by simp [hy])) e

theorem mapPickup {m : Mapper} {s p : Nat} (hm : ∀ e ∈ m, InP b n e.2) (hs : InS b n s) :
    Foot b n (mapPickup m s p) fun n' q => InP b n' q := by
  refine bind (unwrap (Q := fun n' q => InP b n' q) fun q e _ l => (lookup_in hm e).up l) fun n1 q l1 hq => ?_
  refine then0 (modify0 fun h c g => ?_) fun n2 _ l2 => pure fun _ l3 => (hq.up l2).up l3
  exact foot_setPt c hq.1 ⟨fun x e => by cases e; exact (hs.up l1).up g, (c.pt q (hq.up g)).drop⟩

theorem mapDelivery {m : Mapper} {s p : Nat} (hm : ∀ e ∈ m, InP b n e.2) (hs : InS b n s) :
    Foot b n (mapDelivery m s p) fun n' q => InP b n' q := by
  refine bind (unwrap (Q := fun n' q => InP b n' q) fun q e _ l => (lookup_in hm e).up l) fun n1 q l1 hq => ?_
  refine then0 (modify0 fun h c g => ?_) fun n2 _ l2 => pure fun _ l3 => (hq.up l2).up l3
  exact foot_setPt c hq.1 ⟨(c.pt q (hq.up g)).pick, fun x e => by cases e; exact (hs.up l1).up g⟩

theorem cloneStop {m : Mapper} {prev : Option Nat} {s : Nat} (hm : ∀ e ∈ m, InP b n e.2) (hp : ∀ q, prev = some q → InS b n q) :
    Foot b n (cloneStop m prev s) fun n' x => InS b n' x := by
  refine asking fun h c g => bind (newStop fun q e => (hp q e).up g) fun n1 x l1 hx => ?_
  have hm1 : ∀ {n'}, n1.Le n' → ∀ e ∈ m, InP b n' e.2 := fun l e he => (((hm e he).up g).up l1).up l
  refine bind (mapEach (Q := fun n' q => InP b n' q) (fun _ _ _ l hq => hq.up l) _ _ fun p _ n' l => mapPickup (hm1 l) (hx.up l)) fun n2 ps l2 hps => ?_
  refine then0 (modify0 fun h c g => ?_) fun n3 _ l3 => ?_
  · have k := c.stop x ((hx.up l2).up g)
    exact foot_setStop c hx.1 ⟨k.prev, fun p hp => (hps p hp).up g, k.drops⟩
  refine bind (mapEach (Q := fun n' q => InP b n' q) (fun _ _ _ l hq => hq.up l) _ _ fun p _ n' l =>
    mapDelivery (hm1 ((l2.trans l3).trans l)) (hx.up ((l2.trans l3).trans l))) fun n4 ds l4 hds => ?_
  refine then0 (modify0 fun h c g => ?_) fun n5 _ l5 => pure fun _ l6 => hx.up (((l2.trans l3).trans l4).trans (l5.trans l6))
  have k := c.stop x (hx.up (((l2.trans l3).trans l4).trans g))
  exact foot_setStop c hx.1 ⟨k.prev, k.picks, fun p hp => (hds p hp).up g⟩

theorem cloneStops {m : Mapper} : ∀ (l : List Nat) (prev : Option Nat) {n : Region}, (∀ e ∈ m, InP b n e.2) → (∀ q, prev = some q → InS b n q) →
    Foot b n (cloneStops m prev l) fun n' xs => ∀ x ∈ xs, InS b n' x
  | [], _, _, _, _ => pure fun _ _ _ hx => (nomatch hx)
  | s :: l, prev, n, hm, hp => by
    refine bind (cloneStop hm hp) fun n1 x l1 hx => bind (cloneStops l (some x) (fun e he => (hm e he).up l1) fun q e => by cases e; exact hx)
      fun n2 xs l2 hxs => pure fun _ l3 y hy => ?_
    rcases List.mem_cons.1 hy with rfl | hy
    · exact (hx.up l2).up l3
    · exact (hxs y hy).up l3

theorem cloneRouteIdx {r desired : Nat} (hr : InR b n r) : Foot b n (cloneRouteIdx E r desired) fun n' x => InR b n' x.1 := by
  refine bind (clonerInit hr) fun n1 x l1 hx => bind (routeStops (hr.up l1)) fun n2 l l2 hl => asking fun h c g => ?_
  refine bind (cloneStops _ _ (fun e he => ((hx e he).up l2).up g) fun q e => ?_) fun n3 xs l3 hxs => ?_
  · exact (hl q (List.mem_of_mem_take (List.mem_of_getLast? e))).up g
  refine bind (newRouteWith fun s hs => ?_) fun n4 r' l4 hr' => pure fun _ l5 => hr'.up l5
  rcases List.mem_append.1 hs with hs | hs
  · exact ((hl s (List.mem_of_mem_take hs)).up g).up l3
  · exact hxs s hs

theorem cloneRoute {r desired : Nat} (hr : InR b n r) : Foot b n (cloneRoute E r desired) fun n' x => InR b n' x :=
  bind (cloneRouteIdx hr) fun _ _ _ hx => pure fun _ l => hx.up l

end Foot

end Jinete
