import Verif.Proofs.Batch
import Verif.Spec.Reach

/-!
# The invariant holds in every reachable state
-/

set_option autoImplicit false

namespace Jinete

variable {E : Env}

theorem newRoute_inv {md : Mode} {R : Nat → Prop} {h : Heap} (v : Nat) (inv : Inv E md R h) :
    ∃ h', newRoute E v h = (.ok h.core.nRoute, h') ∧ Inv E md (Plus R h.core.nRoute) h' ∧ Below h h' ∧
      h'.core.nRoute = h.core.nRoute + 1 ∧ (h'.core.route h.core.nRoute).vehicle = v ∧
      duties h'.core h.core.nRoute = [⟨(E.vehicle v).origin.position, [], []⟩, ⟨(E.vehicle v).destination.position, [], []⟩] := by
  set n := h.core.nStop with hn
  set h1 := h.allocStop ⟨v, (E.vehicle v).origin.position, none, [], [], none⟩ with hh1
  set h2 := h1.allocStop ⟨v, (E.vehicle v).destination.position, some n, [], [], none⟩ with hh2
  set h3 := h2.allocRoute ⟨v, [n, n + 1]⟩ with hh3
  have run : newRoute E v h = (.ok h.core.nRoute, h3) := rfl
  have s0 : h3.core.stop n = ⟨v, (E.vehicle v).origin.position, none, [], [], none⟩ := by
    have a : h3.core.stop n = h1.core.stop n := Function.update_of_ne (by show n ≠ n + 1; omega) _ _
    rw [a]; exact Function.update_self _ _ _
  have s1 : h3.core.stop (n + 1) = ⟨v, (E.vehicle v).destination.position, some n, [], [], none⟩ :=
    Function.update_self _ _ _
  have rt : h3.core.route h.core.nRoute = ⟨v, [n, n + 1]⟩ := Function.update_self _ _ _
  have n3 : h3.core.nStop = n + 2 := rfl
  have upd : ∀ {β : Type} (f : Nat → β) (a b : β) (x : Nat), x < n →
      Function.update (Function.update f n a) (n + 1) b x = f x := by
    intro β f a b x hx
    rw [Function.update_of_ne (by omega), Function.update_of_ne (by omega)]
  have bel : Below h h3 := by
    refine ⟨by omega, le_refl _, ?_, fun x hx => upd _ _ _ x hx, fun x hx => ⟨upd _ _ _ x hx, upd _ _ _ x hx, upd _ _ _ x hx, upd _ _ _ x hx⟩,
      fun p _ => ⟨rfl, rfl⟩, fun q hq => ⟨?_, ?_⟩⟩
    · show h.core.nRoute ≤ h.core.nRoute + 1; omega
    · exact Function.update_of_ne (Nat.ne_of_lt hq) _ _
    · exact Function.update_of_ne (Nat.ne_of_lt hq) _ _
  have blank : ∀ x, x = n ∨ x = n + 1 → h3.arr x = none ∧ h3.dep x = none ∧ h3.cap x = none ∧ h3.sfeas x = none := by
    rintro x (rfl | rfl)
    · have key : ∀ {β : Type} (f : Nat → Option β), Function.update (Function.update f n none) (n + 1) none n = none := by
        intro β f
        rw [Function.update_of_ne (by omega), Function.update_self]
      exact ⟨key _, key _, key _, key _⟩
    · exact ⟨Function.update_self _ _ _, Function.update_self _ _ _, Function.update_self _ _ _, Function.update_self _ _ _⟩
  have mem : ∀ s ∈ (h3.core.route h.core.nRoute).stops, s = n ∨ s = n + 1 := by
    intro s hs
    rw [rt] at hs
    simpa using hs
  have wf : WellFormed h3.core h.core.nRoute := by
    refine { nodup := ?_, alloc := ?_, linked := ?_, vehicle := ?_, exists_ := ?_, length := ?_, depot := ?_, pick := ?_, drop := ?_, sets := ?_, trips := ?_ }
    · rw [rt]; simp
    · intro s hs
      rcases mem s hs with rfl | rfl <;> rw [n3] <;> omega
    · rw [rt]
      rw [linked_iff_from]
      exact ⟨by rw [s0], by rw [s1], trivial⟩
    · intro s hs
      rw [rt]
      rcases mem s hs with rfl | rfl
      · rw [s0]
      · rw [s1]
    · show h.core.nRoute < h.core.nRoute + 1; omega
    · rw [rt]; simp
    · intro s hs
      have : s = n := by rw [rt] at hs; simpa [eq_comm] using hs
      rw [this, s0]; exact ⟨rfl, rfl⟩
    · intro pre s suf e p hp
      have : s ∈ (h3.core.route h.core.nRoute).stops := by rw [e]; simp
      rcases mem s this with rfl | rfl
      · rw [s0] at hp; simp at hp
      · rw [s1] at hp; simp at hp
    · intro pre s suf e p hp
      have : s ∈ (h3.core.route h.core.nRoute).stops := by rw [e]; simp
      rcases mem s this with rfl | rfl
      · rw [s0] at hp; simp at hp
      · rw [s1] at hp; simp at hp
    · intro s hs
      rcases mem s hs with rfl | rfl
      · rw [s0]; simp
      · rw [s1]; simp
    · unfold itinerary
      rw [rt]
      simp [visitOf, s0, s1]
  have planned : routePlannedTrips h3.core h.core.nRoute = [] := by
    unfold routePlannedTrips
    rw [rt]
    simp [s0, s1]
  refine ⟨h3, run, ?_, bel, rfl, by rw [rt], ?_⟩
  · refine (inv.keeps (bel.keeps inv.ok.wf)).add wf ?_ ?_ ?_
    · intro s hs
      have := blank s (mem s hs)
      exact cohAt_none this.1 this.2.1 this.2.2.1
    · intro q hq s e1 e2
      exfalso
      have hb := bel.route q (inv.ok.wf q hq).exists_
      rw [hb.1] at e1
      have := (inv.ok.wf q hq).alloc s (List.mem_of_mem_head? e1)
      rw [rt] at e2
      simp at e2
      omega
    · refine ⟨?_, ?_, ?_⟩
      · rintro q rfl b hb
        have : h3.rfeas h.core.nRoute = none := Function.update_self _ _ _
        rw [this] at hb; cases hb
      · rintro q rfl s hs b hb
        rw [(blank s (mem s hs)).2.2.2] at hb; cases hb
      · rintro q rfl p hp
        rw [planned] at hp; simp at hp
  · unfold duties itinerary
    rw [rt]
    simp [visitOf, s0, s1, Visit.duty]

theorem Inv.empty {md : Mode} : Inv E md (fun _ => False) Heap.empty :=
  ⟨⟨fun _ h => h.elim, fun _ h => h.elim, fun _ h => h.elim⟩, ⟨fun _ h => h.elim, fun _ h => h.elim, fun _ h => h.elim⟩⟩

/-- All routes that exist. -/
def Live (h : Heap) : Nat → Prop := fun q => q < h.core.nRoute

theorem Reach.inv {md : Mode} (hE : EnvOK E) (hx : md = .exact → ∀ t, (E.trip t).timeout = .inf) {h : Heap} (hr : Reach E h) :
    Inv E md (Live h) h := by
  induction hr with
  | empty => exact Inv.empty.subset fun q hq => by simp [Live, Heap.empty] at hq
  | newRoute _ e ih =>
    rename_i h h' v r _
    obtain ⟨h2, e2, inv2, _, n2, _⟩ := newRoute_inv v ih
    rw [e2] at e
    have := congrArg Prod.snd e
    simp only at this
    subst this
    refine inv2.subset fun q hq => ?_
    unfold Live at hq
    rw [n2] at hq
    by_cases hqr : q = h.core.nRoute
    · exact .inr hqr
    · exact .inl (show q < h.core.nRoute by omega)
  | compute _ hrl hij hj hts e ih =>
    rename_i h h' f r i j ts rs _
    obtain ⟨cand, h2, e2, ba⟩ := compute_run hE hx f ih hrl ts hij hj hts
    rw [e2] at e
    have := congrArg Prod.snd e
    simp only at this
    subst this
    refine ba.inv.subset fun q hq => ?_
    by_cases hqr : q < h.core.nRoute
    · exact .inl hqr
    · exact .inr ⟨by omega, hq⟩
  | feasible _ hrl e ih =>
    rename_i h h' r b _
    obtain ⟨h2, e2, g, _⟩ := routeFeasible_memo hE (ih.ok.wf r hrl) rfl (ih.ok.agree r hrl)
    rw [e2] at e
    have := congrArg Prod.snd e
    simp only at this
    subst this
    refine (ih.growsV g).subset fun q hq => ?_
    unfold Live at hq ⊢
    rw [g.core] at hq
    exact hq

/-! ## Verdicts in terms of itineraries -/

theorem looselyFeasible_of {c : Core} {r : Nat} {md : Mode} (hw : WellFormed c r) (hm : md ≠ .any)
    (v : RouteVerdict E md c r true) : LooselyFeasible E (E.vehicle (c.route r).vehicle) (itinerary c r) := by
  have hveh : ∀ s ∈ (c.route r).stops, (c.stop s).vehicle = (c.route r).vehicle := hw.vehicle
  obtain ⟨f, l, hf, hl⟩ := hw.ends
  obtain ⟨t1, t2⟩ := hw.timetable_head (E := E) hf
  obtain ⟨t3, t4⟩ := hw.timetable_last (E := E) hl
  have t1' : (vehicleTimetable E (E.vehicle (c.route r).vehicle) (itinerary c r)).head? = some (tmAt E c f) := t1
  have t3' : (vehicleTimetable E (E.vehicle (c.route r).vehicle) (itinerary c r)).getLast? = some (tmAt E c l) := t3
  have he := v.ends hm rfl
  unfold endsV at he
  rw [hf, hl] at he
  simp only [Bool.and_eq_true, decide_eq_true_eq] at he
  refine ⟨?_, ?_, ?_, ?_, ?_, ?_⟩
  · rw [t2]; simpa [visitOf] using he.1.1.1
  · rw [t1']; intro x hx; cases hx; exact he.1.1.2
  · rw [t4]; simpa [visitOf] using he.1.2
  · rw [t3']; intro x hx; cases hx; exact he.2
  · intro i j v' w x y q q' t hv hw' hx hy hq hq' ht ht'
    have gi : ∃ su, (c.route r).stops[i]? = some su ∧ visitOf c su = v' := by
      simpa [itinerary, List.getElem?_map, Option.map_eq_some_iff] using hv
    have gj : ∃ sd, (c.route r).stops[j]? = some sd ∧ visitOf c sd = w := by
      simpa [itinerary, List.getElem?_map, Option.map_eq_some_iff] using hw'
    obtain ⟨su, hi, rfl⟩ := gi
    obtain ⟨sd, hj, rfl⟩ := gj
    obtain ⟨p, hp1, hp2, rfl, hp4, hp5, hp6⟩ := hw.served hi hj ht ht'
    obtain ⟨a1, a2, _⟩ := hw.timetable_idx (E := E) hi
    obtain ⟨b1, b2, _⟩ := hw.timetable_idx (E := E) hj
    have ex : x = tmAt E c su := by
      have := hx.symm.trans a1; simpa using this
    have ey : y = tmAt E c sd := by
      have := hy.symm.trans b1; simpa using this
    have eq1 : q = loadAt E c su := by
      have := hq.symm.trans a2; simpa using this
    have eq2 : q' = loadAt E c sd := by
      have := hq'.symm.trans b2; simpa using this
    subst ex ey eq1 eq2
    obtain ⟨u, d, k1, k2, k3, k4, k5⟩ := (v.trips rfl p hp6).sound hm rfl
    rw [hp4] at k1; cases k1
    rw [hp5] at k2; cases k2
    replace k3 := k3.load
    replace k4 := k4.load
    rw [hveh su (List.mem_of_getElem? hi)] at k3
    rw [hveh sd (List.mem_of_getElem? hj)] at k4
    have eb : (0 : ℚ) ≤ errorBound := by norm_num [errorBound]
    refine ⟨?_, ?_, k3, k4, k5⟩
    · have := le_stopEarliest_pick (E := E) hp1
      have := stopEarliest_le (E := E) (c := c) su
      simp only [ptTrip] at *
      linarith
    · have := le_stopEarliest_drop (E := E) hp2
      have := stopEarliest_le (E := E) (c := c) sd
      simp only [ptTrip] at *
      linarith
  · intro i j v' w x y t hv hw' hx hy ht ht'
    have gi : ∃ su, (c.route r).stops[i]? = some su ∧ visitOf c su = v' := by
      simpa [itinerary, List.getElem?_map, Option.map_eq_some_iff] using hv
    have gj : ∃ sd, (c.route r).stops[j]? = some sd ∧ visitOf c sd = w := by
      simpa [itinerary, List.getElem?_map, Option.map_eq_some_iff] using hw'
    obtain ⟨su, hi, rfl⟩ := gi
    obtain ⟨sd, hj, rfl⟩ := gj
    obtain ⟨p, hp1, hp2, rfl, hp4, hp5, hp6⟩ := hw.served hi hj ht ht'
    obtain ⟨a1, _⟩ := hw.asap.timetable_idx (E := E) hi
    obtain ⟨b1, _⟩ := hw.asap.timetable_idx (E := E) hj
    unfold routeTimetable at a1 b1
    rw [asap_itinerary] at a1 b1
    have ex : x = tmAt E c.asap su := by
      have := hx.symm.trans a1; simpa using this
    have ey : y = tmAt E c.asap sd := by
      have := hy.symm.trans b1; simpa using this
    subst ex ey
    obtain ⟨u, d, k1, k2, k3, k4, _⟩ := (v.trips rfl p hp6).sound hm rfl
    rw [hp4] at k1; cases k1
    rw [hp5] at k2; cases k2
    exact ⟨((leQ_stopLatest su _).1 k3.closing).1 p hp1, ((leQ_stopLatest sd _).1 k4.closing).2 p hp2⟩

/-- In the schedule of visits as soon as possible nothing is served later. -/
theorem timetable_asap {t t' : ℚ} (h : t ≤ t') {p : Pos} {l : List Visit} {i : Nat} {x : Tm}
    (hx : (timetable E t p (asSoonAsPossible l))[i]? = some x) :
    ∃ x', (timetable E t' p l)[i]? = some x' ∧ x.start ≤ x'.start := by
  induction l generalizing t t' p i with
  | nil => simp [asSoonAsPossible, timetable] at hx
  | cons v l ih =>
    have hm := serve_mono (E := E) h p v
    have e : asSoonAsPossible (v :: l) = { v with request := none } :: asSoonAsPossible l := rfl
    rw [e] at hx
    cases i with
    | zero =>
      simp only [timetable, List.getElem?_cons_zero, Option.some.injEq] at hx ⊢
      subst hx
      exact ⟨_, rfl, hm.1⟩
    | succ i =>
      simp only [timetable, List.getElem?_cons_succ] at hx ⊢
      exact ih hm.2 hx

theorem feasible_of {c : Core} {r : Nat} (hw : WellFormed c r) (hv : vehV E c r = true)
    (ht : ∀ p ∈ routePlannedTrips c r, PtVerdict E .exact c p true) :
    FeasibleItinerary E (E.vehicle (c.route r).vehicle) (itinerary c r) := by
  rw [← freshV_iff hw]
  unfold freshV
  rw [Bool.and_eq_true, List.all_eq_true]
  exact ⟨hv, fun p hp => ((ht p hp).full rfl).symm⟩

end Jinete
