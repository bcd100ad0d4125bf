import Verif.Props.Timings
import Verif.Props.Strategy
import Verif.Proofs.NewOrigin
import Verif.Spec.Value

/-!
# C133: what is left after removing a trip

Removing a trip from a route takes its two visits away. The remaining visits can still be made at the times at which they were made
before, if detours never save time; the vehicle gets to them no later and drives no further.
-/

set_option autoImplicit false

namespace Jinete

variable {E : Env}

/-- No detour among these positions saves time. -/
def NoShortcut (E : Env) (ps : List Pos) : Prop := ∀ a ∈ ps, ∀ b ∈ ps, ∀ c ∈ ps, E.metric a c ≤ E.metric a b + E.metric b c

/-! ## Leaving out one visit -/

theorem drives_skip (hE : EnvOK E) {ps : List Pos} (tri : NoShortcut E ps) {u : Visit} {x : Tm} :
    ∀ {P L : List Visit} {A T : List Tm} {t : ℚ} {p : Pos}, p ∈ ps → (∀ v ∈ P ++ u :: L, v.pos ∈ ps) → A.length = P.length → Drives E t p (P ++ u :: L) (A ++ x :: T) →
      Drives E t p (P ++ L) (A ++ T)
  | [], L, [], T, t, p, hp, hl, _, h => by
    obtain ⟨⟨h1, h2, _, h4⟩, hd⟩ := h
    cases L with
    | nil => cases T with
      | nil => trivial
      | cons y T => exact hd
    | cons w L => cases T with
      | nil => exact hd
      | cons y T =>
        obtain ⟨⟨k1, k2, k3, k4⟩, hd⟩ := hd
        refine ⟨⟨?_, k2, k3, k4⟩, hd⟩
        have := tri p hp u.pos (hl u (by simp)) w.pos (hl w (by simp))
        have := loadTime_nonneg hE u
        linarith
  | v :: P, L, _ :: A, T, t, p, hp, hv, hl, h =>
    ⟨h.1, drives_skip hE tri (P := P) (A := A) (hv v (by simp)) (fun w hw => hv w (List.mem_cons_of_mem _ hw)) (by simpa using hl) h.2⟩

theorem honours_skip {u : Visit} {x : Tm} : ∀ {P L : List Visit} {A T : List Tm}, A.length = P.length → Honours (P ++ u :: L) (A ++ x :: T) →
    Honours (P ++ L) (A ++ T)
  | [], _, [], _, _, h => h.2
  | _ :: P, _, _ :: A, _, hl, h => ⟨h.1, honours_skip (P := P) (A := A) (by simpa using hl) h.2⟩

theorem tourLength_skip {ps : List Pos} (tri : NoShortcut E ps) (u : Pos) : ∀ (P L : List Pos) (p : Pos), L ≠ [] → p ∈ ps →
    (∀ q ∈ P ++ u :: L, q ∈ ps) →
    tourLength E p (P ++ L) ≤ tourLength E p (P ++ u :: L)
  | [], w :: L, p, _, hp, hl => by
    have := tri w (hl w (by simp)) u (hl u (by simp)) p hp
    simp only [List.nil_append, tourLength]
    linarith
  | q :: P, L, p, h, _, hl => by
    have := tourLength_skip tri u P L q h (hl q (by simp)) (fun w hw => hl w (List.mem_cons_of_mem _ hw))
    simp only [List.cons_append, tourLength]
    linarith
  | [], [], _, h, _, _ => absurd rfl h

theorem loads_shift (c : ℚ) : ∀ (l : List Visit) (q : ℚ), loads E (q + c) l = (loads E q l).map (· + c)
  | [], _ => rfl
  | v :: l, q => by
    simp only [loads, List.map_cons]
    have e : q + c + tripsCapacity E v.picks - tripsCapacity E v.drops = q + tripsCapacity E v.picks - tripsCapacity E v.drops + c := by ring
    rw [e, loads_shift c l]

/-! ## Leaving out the two visits of a trip -/

/-- Where the visits of the shorter list are in the longer one. -/
def longer (p m i : Nat) : Nat := if i < p then i else if i < p + m then i + 1 else i + 2

theorem longer_getElem? {α : Type} (P M S : List α) (u d : α) (i : Nat) :
    (P ++ u :: (M ++ d :: S))[longer P.length M.length i]? = (P ++ (M ++ S))[i]? := by
  unfold longer
  split_ifs with h1 h2
  · rw [List.getElem?_append_left h1, List.getElem?_append_left h1]
  · rw [List.getElem?_append_right (by omega), List.getElem?_append_right (by omega)]
    have e : i + 1 - P.length = (i - P.length) + 1 := by omega
    rw [e, List.getElem?_cons_succ, List.getElem?_append_left (by omega), List.getElem?_append_left (by omega)]
  · rw [List.getElem?_append_right (by omega), List.getElem?_append_right (by omega)]
    have e : i + 2 - P.length = (i - P.length + 1) + 1 := by omega
    rw [e, List.getElem?_cons_succ, List.getElem?_append_right (by omega), List.getElem?_append_right (by omega)]
    have e : i - P.length + 1 - M.length = (i - P.length - M.length) + 1 := by omega
    rw [e, List.getElem?_cons_succ]

theorem longer_le {p m i j : Nat} (h : i ≤ j) : longer p m i ≤ longer p m j := by
  unfold longer
  split_ifs <;> omega

theorem loads_without (hE : EnvOK E) {P M S : List Visit} {u d : Visit} {t : Nat} (hu : u.picks = [t] ∧ u.drops = []) (hd : d.picks = [] ∧ d.drops = [t])
    (i : Nat) (q : ℚ) (h : (loads E 0 (P ++ (M ++ S)))[i]? = some q) :
    ∃ q', (loads E 0 (P ++ u :: (M ++ d :: S)))[longer P.length M.length i]? = some q' ∧ q ≤ q' := by
  have c0 := hE.capacity t
  have e1 : tripsCapacity E u.picks = (E.trip t).capacity := by simp [hu.1, tripsCapacity]
  have e2 : tripsCapacity E u.drops = 0 := by simp [hu.2, tripsCapacity]
  have e3 : tripsCapacity E d.picks = 0 := by simp [hd.1, tripsCapacity]
  have e4 : tripsCapacity E d.drops = (E.trip t).capacity := by simp [hd.2, tripsCapacity]
  have shift : ∀ (l : List Visit) (q c : ℚ), loadAfter E (q + c) l = loadAfter E q l + c := by
    intro l
    induction l with
    | nil => intro q c; rfl
    | cons v l ih =>
      intro q c
      simp only [loadAfter]
      rw [← ih]
      congr 1
      ring
  have eS : loadAfter E (loadAfter E 0 P + (E.trip t).capacity) M + tripsCapacity E d.picks - tripsCapacity E d.drops =
      loadAfter E (loadAfter E 0 P) M := by
    rw [shift, e3, e4]; ring
  have eM : loadAfter E 0 P + tripsCapacity E u.picks - tripsCapacity E u.drops = loadAfter E 0 P + (E.trip t).capacity := by
    rw [e1, e2]; ring
  have old : ∃ qu qd, loads E 0 (P ++ u :: (M ++ d :: S)) = loads E 0 P ++ qu :: ((loads E (loadAfter E 0 P) M).map (· + (E.trip t).capacity) ++
      qd :: loads E (loadAfter E (loadAfter E 0 P) M) S) := by
    refine ⟨loadAfter E 0 P + (E.trip t).capacity, loadAfter E (loadAfter E 0 P) M, ?_⟩
    rw [loads_append]
    simp only [loads]
    rw [eM, loads_append]
    simp only [loads]
    rw [eS, loads_shift]
  obtain ⟨qu, qd, old⟩ := old
  have new : loads E 0 (P ++ (M ++ S)) = loads E 0 P ++ (loads E (loadAfter E 0 P) M ++ loads E (loadAfter E (loadAfter E 0 P) M) S) := by
    rw [loads_append, loads_append]
  have pos := longer_getElem? (loads E 0 P) ((loads E (loadAfter E 0 P) M).map (· + (E.trip t).capacity))
    (loads E (loadAfter E (loadAfter E 0 P) M) S) qu qd i
  rw [← old] at pos
  simp only [loads_length, List.length_map] at pos
  rw [pos]
  rw [new] at h
  rcases Nat.lt_or_ge i P.length with h1 | h1
  · rw [List.getElem?_append_left (by simpa using h1)] at h ⊢
    exact ⟨q, h, le_rfl⟩
  · rw [List.getElem?_append_right (by simpa using h1)] at h ⊢
    rcases Nat.lt_or_ge (i - (loads E 0 P).length) M.length with h2 | h2
    · rw [List.getElem?_append_left (by simpa using h2)] at h ⊢
      rw [List.getElem?_map, h]
      exact ⟨q + (E.trip t).capacity, rfl, by linarith⟩
    · rw [List.getElem?_append_right (by simpa using h2)] at h ⊢
      simp only [List.length_map, loads_length] at h ⊢
      exact ⟨q, h, le_rfl⟩

/-- A feasible timing, restricted to the remaining visits, is a feasible timing. -/
theorem FeasibleTiming.without (hE : EnvOK E) {veh : Vehicle} {P M S : List Visit} {u d : Visit}
    (tri : NoShortcut E (veh.origin.position :: (P ++ u :: (M ++ d :: S)).map Visit.pos)) {A B C : List Tm} {x y : Tm} {t : Nat} (hu : u.picks = [t] ∧ u.drops = []) (hd : d.picks = [] ∧ d.drops = [t])
    (hA : A.length = P.length) (hB : B.length = M.length) (hP : P ≠ []) (hS : S ≠ [])
    (h : FeasibleTiming E veh (P ++ u :: (M ++ d :: S)) (A ++ x :: (B ++ y :: C))) : FeasibleTiming E veh (P ++ (M ++ S)) (A ++ (B ++ C)) := by
  have hlen := drives_length h.drives
  have hC : C.length = S.length := by simp [hA, hB] at hlen; omega
  have hA0 : A ≠ [] := by rintro rfl; exact hP (List.length_eq_zero_iff.1 hA.symm)
  have hC0 : C ≠ [] := by rintro rfl; exact hS (List.length_eq_zero_iff.1 hC.symm)
  have head {α : Type} (P M S : List α) (u d : α) (h : P ≠ []) : (P ++ (M ++ S)).head? = (P ++ u :: (M ++ d :: S)).head? := by
    cases P with
    | nil => exact absurd rfl h
    | cons a P => rfl
  have last {α : Type} (P M S : List α) (u d : α) (h : S ≠ []) : (P ++ (M ++ S)).getLast? = (P ++ u :: (M ++ d :: S)).getLast? := by
    have e : P ++ u :: (M ++ d :: S) = (P ++ u :: (M ++ [d])) ++ S := by simp
    rw [e, ← List.append_assoc, List.getLast?_append_of_ne_nil _ h, List.getLast?_append_of_ne_nil _ h]
  have hd1 := drives_skip hE tri (by simp) (fun v hv => List.mem_cons_of_mem _ (List.mem_map_of_mem hv)) hA h.drives
  rw [← List.append_assoc, ← List.append_assoc A] at hd1
  have hd2 := drives_skip hE tri (by simp) (fun v hv => List.mem_cons_of_mem _ (List.mem_map_of_mem (by simp at hv ⊢; tauto))) (by simp [hA, hB]) hd1
  rw [List.append_assoc, List.append_assoc] at hd2
  refine ⟨hd2, ?_, ?_, ?_, ?_, ?_⟩
  · rw [head P M S u d hP]; exact h.startPos
  · rw [last P M S u d hS]; exact h.endPos
  · rw [last A B C x y hC0]; exact h.endTime
  · rw [last A B C x y hC0, head A B C x y hA0]; exact h.duration
  · intro i j v w z z' q q' k hv hw hz hz' hq hq' hk hk'
    obtain ⟨r, hr, hqr⟩ := loads_without hE hu hd i q hq
    obtain ⟨r', hr', hqr'⟩ := loads_without hE hu hd j q' hq'
    have ok := h.trips (longer P.length M.length i) (longer P.length M.length j) v w z z' r r' k
      (by rw [longer_getElem?]; exact hv) (by rw [longer_getElem?]; exact hw)
      (by rw [← hA, ← hB, longer_getElem?]; exact hz) (by rw [← hA, ← hB, longer_getElem?]; exact hz') hr hr' hk hk'
    exact ⟨ok.pickEarliest, ok.pickLatest, ok.dropEarliest, ok.dropLatest, hqr.trans ok.pickLoad, hqr'.trans ok.dropLoad, ok.ride⟩

/-- The times of the visits that do not serve trip `t`. -/
def timesWithout (t : Nat) (l : List Visit) (ts : List Tm) : List Tm :=
  ((l.zip ts).filter fun a => decide (t ∉ a.1.picks ∧ t ∉ a.1.drops)).map Prod.snd

theorem timesWithout_eq {t : Nat} {P M S : List Visit} {u d : Visit} {A B C : List Tm} {x y : Tm} (hu : t ∈ u.picks) (hd : t ∈ d.drops)
    (ho : ∀ v ∈ P ++ (M ++ S), t ∉ v.picks ∧ t ∉ v.drops) (hA : A.length = P.length) (hB : B.length = M.length) (hC : C.length = S.length) :
    timesWithout t (P ++ u :: (M ++ d :: S)) (A ++ x :: (B ++ y :: C)) = A ++ (B ++ C) := by
  have keep : ∀ (l : List Visit) (ts : List Tm), (∀ v ∈ l, t ∉ v.picks ∧ t ∉ v.drops) → ts.length = l.length →
      ((l.zip ts).filter fun a => decide (t ∉ a.1.picks ∧ t ∉ a.1.drops)).map Prod.snd = ts := by
    intro l ts h hl
    rw [List.filter_eq_self.2 (fun a ha => decide_eq_true (h a.1 (List.of_mem_zip ha).1)), List.map_snd_zip (by omega)]
  unfold timesWithout
  rw [List.zip_append hA.symm, List.zip_cons_cons, List.zip_append hB.symm, List.zip_cons_cons]
  rw [List.filter_append, List.filter_cons_of_neg (by simp [hu]), List.filter_append, List.filter_cons_of_neg (by simp [hd]),
    List.map_append, List.map_append, keep P A (fun v hv => ho v (by simp [hv])) hA, keep M B (fun v hv => ho v (by simp [hv])) hB,
    keep S C (fun v hv => ho v (by simp [hv])) hC]

theorem split_times {ts : List Tm} {p m s : Nat} (h : ts.length = p + (1 + (m + (1 + s)))) :
    ∃ (A : List Tm) (x : Tm) (B : List Tm) (y : Tm) (C : List Tm), ts = A ++ x :: (B ++ y :: C) ∧ A.length = p ∧ B.length = m ∧ C.length = s := by
  obtain ⟨A, T, rfl, hA⟩ : ∃ A T, ts = A ++ T ∧ A.length = p := ⟨ts.take p, ts.drop p, (List.take_append_drop _ _).symm, by simp; omega⟩
  rw [List.length_append] at h
  cases T with
  | nil => simp at h; omega
  | cons x T =>
    obtain ⟨B, U, rfl, hB⟩ : ∃ B U, T = B ++ U ∧ B.length = m := ⟨T.take m, T.drop m, (List.take_append_drop _ _).symm, by simp at h ⊢; omega⟩
    cases U with
    | nil => simp at h; omega
    | cons y C => exact ⟨A, x, B, y, C, rfl, hA, hB, by simp at h; omega⟩

/-! ## C133 -/

/-- The full claim C133: if the constraints hold for a route, they hold after removing a trip from it. -/
def RemovalKeepsFeasible : Prop :=
  ∀ (E : Env) (h : Heap) (r t : Nat), EnvOK E → NoShortcut E ((E.vehicle (h.core.route r).vehicle).origin.position :: (itinerary h.core r).map Visit.pos) →
    WellFormed h.core r → CachesAgree E h r →
    SingleVisits (duties h.core r) → t ∈ tripsOf h.core r → FeasibleItinerary E (E.vehicle (h.core.route r).vehicle) (itinerary h.core r) →
    ∃ h', removeTrip E r t h = (.ok (), h') ∧ FeasibleItinerary E (E.vehicle (h'.core.route r).vehicle) (itinerary h'.core r)

/-- **C133.** If no detour saves time, then `remove_trip` for a trip of a route raises nothing and takes away exactly the two visits of
the trip; the remaining visits can be made at their old times: the restriction of every feasible timing is feasible again. The new
schedule reaches, serves and leaves none of them later, and the vehicle drives no further. The constraints still hold for the new
schedule if it does not wait during rides of limited length nor, after the first stop, if the duration of the tour is limited.
Missing: routes that wait during a limited ride or tour, for which `C133_earlier_pickup_longer_ride` refutes `RemovalKeepsFeasible`. -/
theorem C133_removal_keeps_feasible_partial (hE : EnvOK E) (h : Heap) (r t : Nat)
    (tri : NoShortcut E ((E.vehicle (h.core.route r).vehicle).origin.position :: (itinerary h.core r).map Visit.pos))
    (hw : WellFormed h.core r) (ha : CachesAgree E h r) (hs : SingleVisits (duties h.core r)) (ht : t ∈ tripsOf h.core r) :
    ∃ h', removeTrip E r t h = (.ok (), h') ∧ CachesAgree E h' r ∧ (h'.core.route r).vehicle = (h.core.route r).vehicle ∧
      itinerary h'.core r = (itinerary h.core r).filter (fun v => decide (t ∉ v.picks ∧ t ∉ v.drops)) ∧
      (∀ ts, FeasibleTiming E (E.vehicle (h.core.route r).vehicle) (itinerary h.core r) ts →
        FeasibleTiming E (E.vehicle (h.core.route r).vehicle) (itinerary h'.core r) (timesWithout t (itinerary h.core r) ts)) ∧
      (∀ (i : Nat) (x y : Tm), (routeTimetable E h'.core r)[i]? = some x →
        (timesWithout t (itinerary h.core r) (routeTimetable E h.core r))[i]? = some y → x.arr ≤ y.arr ∧ x.start ≤ y.start ∧ x.dep ≤ y.dep) ∧
      tourLength E (E.vehicle (h.core.route r).vehicle).origin.position ((itinerary h'.core r).map Visit.pos) ≤
        tourLength E (E.vehicle (h.core.route r).vehicle).origin.position ((itinerary h.core r).map Visit.pos) ∧
      (FeasibleItinerary E (E.vehicle (h.core.route r).vehicle) (itinerary h.core r) →
        WaitsOutside E (E.vehicle (h.core.route r).vehicle) (itinerary h'.core r) →
        FeasibleItinerary E (E.vehicle (h.core.route r).vehicle) (itinerary h'.core r)) := by
  obtain ⟨p, u, d, pre, mid, suf, e, hpre, hsuf, hpu, hpd, hpt, hout, ou, od⟩ := hw.trip_stops ht hs
  have hu : t ∈ stopTrips h.core u := mem_stopTrips.2 (.inl ⟨p, hpu, hpt⟩)
  have hd : t ∈ stopTrips h.core d := mem_stopTrips.2 (.inr ⟨p, hpd, hpt⟩)
  obtain ⟨g, h', e1, g1, gs, gv, gr, gst, gpt, _, _, _, gc, ga⟩ := removeTrip_run hE hw.toChained ha e hpre hsuf hu hd hout
  have hun : (h.core.route r).stops.Nodup := hw.nodup
  have hud : u ≠ d := by
    rintro rfl
    rw [e] at hun
    have := (List.nodup_append.1 hun).2.1
    simp at this
  have hus : u ∈ (h.core.route r).stops := by rw [e]; simp
  have hds : d ∈ (h.core.route r).stops := by rw [e]; simp
  have single : ∀ (l : List Nat), l.Nodup → p ∈ l → (∀ q ∈ l, q = p) → l = [p] := by
    intro l hn hp hall
    cases l with
    | nil => cases hp
    | cons a l =>
      have ea := hall a (by simp)
      subst ea
      cases l with
      | nil => rfl
      | cons b l =>
        have eb := hall b (by simp)
        subst eb
        simp at hn
  have u1 : (h.core.stop u).pickups = [p] := single _ (hw.sets u hus).1 hpu fun q hq => ou q (List.mem_append_left _ hq)
  have d2 : (h.core.stop d).deliveries = [p] := single _ (hw.sets d hds).2 hpd fun q hq => od q (List.mem_append_right _ hq)
  have u2 : (h.core.stop u).deliveries = [] := by
    by_contra hne
    obtain ⟨q, hq⟩ := List.exists_mem_of_ne_nil _ hne
    have := ou q (List.mem_append_right _ hq)
    subst this
    have x1 := (hw.drop' hus hq).2.1
    rw [(hw.drop' hds hpd).2.1] at x1
    exact hud (Option.some.inj x1).symm
  have d1 : (h.core.stop d).pickups = [] := by
    by_contra hne
    obtain ⟨q, hq⟩ := List.exists_mem_of_ne_nil _ hne
    have := od q (List.mem_append_left _ hq)
    subst this
    have x1 := (hw.pick' hds hq).2.1
    rw [(hw.pick' hus hpu).2.1] at x1
    exact hud (Option.some.inj x1)
  have vu : (visitOf h.core u).picks = [t] ∧ (visitOf h.core u).drops = [] := by simp [visitOf, u1, u2, hpt]
  have vd : (visitOf h.core d).picks = [] ∧ (visitOf h.core d).drops = [t] := by simp [visitOf, d1, d2, hpt]
  have vis : ∀ x, visitOf h'.core x = visitOf h.core x := by
    intro x
    rw [g1.core]
    obtain ⟨q, hq⟩ := gst x
    simp only [visitOf, hq, gpt]
  have old : itinerary h.core r = pre.map (visitOf h.core) ++ visitOf h.core u :: (mid.map (visitOf h.core) ++ visitOf h.core d ::
      suf.map (visitOf h.core)) := by simp [itinerary, e]
  have new : itinerary h'.core r = pre.map (visitOf h.core) ++ (mid.map (visitOf h.core) ++ suf.map (visitOf h.core)) := by
    unfold itinerary
    rw [g1.core, gs, ← g1.core, List.map_congr_left fun x _ => vis x]
    simp
  have veh : (h'.core.route r).vehicle = (h.core.route r).vehicle := by rw [g1.core, gv]
  have out : ∀ v ∈ pre.map (visitOf h.core) ++ (mid.map (visitOf h.core) ++ suf.map (visitOf h.core)), t ∉ v.picks ∧ t ∉ v.drops := by
    intro v hv
    obtain ⟨x, hx, rfl⟩ : ∃ x ∈ pre ++ mid ++ suf, visitOf h.core x = v := by
      have : v ∈ (pre ++ mid ++ suf).map (visitOf h.core) := by simpa using hv
      exact List.mem_map.1 this
    have := hout x hx
    rw [stopTrips_visit, List.mem_append, not_or] at this
    exact this
  have hP : pre.map (visitOf h.core) ≠ [] := by simpa using hpre
  have hS : suf.map (visitOf h.core) ≠ [] := by simpa using hsuf
  have old_times : routeTimetable E h.core r = vehicleTimetable E (E.vehicle (h.core.route r).vehicle) (itinerary h.core r) := rfl
  have new_times : routeTimetable E h'.core r = vehicleTimetable E (E.vehicle (h.core.route r).vehicle) (itinerary h'.core r) := by
    rw [← veh]; rfl
  have before := hw.pick_before
  refine ⟨h', e1, g1.agree gc ga, veh, ?_⟩
  rw [old_times, new_times]
  generalize pre.map (visitOf h.core) = P at *
  generalize mid.map (visitOf h.core) = M at *
  generalize suf.map (visitOf h.core) = S at *
  generalize visitOf h.core u = v at *
  generalize visitOf h.core d = w at *
  generalize E.vehicle (h.core.route r).vehicle = k at *
  have feas : ∀ ts, FeasibleTiming E k (itinerary h.core r) ts →
      FeasibleTiming E k (itinerary h'.core r) (timesWithout t (itinerary h.core r) ts) := by
    intro ts hts
    have hl := drives_length hts.drives
    rw [old] at hl hts ⊢
    rw [new]
    obtain ⟨A, x, B, y, C, rfl, hA, hB, hC⟩ := split_times (ts := ts) (p := P.length) (m := M.length) (s := S.length)
      (by rw [hl]; simp; omega)
    rw [timesWithout_eq (by simp [vu.1]) (by simp [vd.2]) out hA hB hC]
    exact hts.without hE (old ▸ tri) vu vd hA hB hP hS
  have rest : Drives E k.origin.earliest k.origin.position (itinerary h'.core r) (timesWithout t (itinerary h.core r) (vehicleTimetable E k (itinerary h.core r))) ∧
      Honours (itinerary h'.core r) (timesWithout t (itinerary h.core r) (vehicleTimetable E k (itinerary h.core r))) := by
    have h1 : Drives E k.origin.earliest k.origin.position (itinerary h.core r) (vehicleTimetable E k (itinerary h.core r)) := timetable_drives _ _ _
    have h2 : Honours (itinerary h.core r) (vehicleTimetable E k (itinerary h.core r)) := timetable_honours (E := E) _ _ _
    have hl := drives_length h1
    generalize vehicleTimetable E k (itinerary h.core r) = ts at h1 h2 hl ⊢
    rw [old] at hl h1 h2 tri ⊢
    rw [new]
    obtain ⟨A, x, B, y, C, rfl, hA, hB, hC⟩ := split_times (ts := ts) (p := P.length) (m := M.length) (s := S.length)
      (by rw [hl]; simp; omega)
    rw [timesWithout_eq (by simp [vu.1]) (by simp [vd.2]) out hA hB hC]
    have k1 := drives_skip hE tri (by simp) (fun v hv => List.mem_cons_of_mem _ (List.mem_map_of_mem hv)) hA h1
    have k2 := honours_skip hA h2
    rw [← List.append_assoc, ← List.append_assoc A] at k1 k2
    have k1 := drives_skip hE tri (by simp) (fun v hv => List.mem_cons_of_mem _ (List.mem_map_of_mem (by simp at hv ⊢; tauto))) (by simp [hA, hB]) k1
    have k2 := honours_skip (by simp [hA, hB]) k2
    rw [List.append_assoc, List.append_assoc] at k1 k2
    exact ⟨k1, k2⟩
  refine ⟨?_, feas, ?_, ?_, ?_⟩
  · rw [new, old, List.filter_append, List.filter_cons_of_neg (by simp [vu.1]), List.filter_append, List.filter_cons_of_neg (by simp [vd.2]),
      List.filter_eq_self.2 (fun a ha => decide_eq_true (out a (by simp [ha]))),
      List.filter_eq_self.2 (fun a ha => decide_eq_true (out a (by simp [ha]))),
      List.filter_eq_self.2 (fun a ha => decide_eq_true (out a (by simp [ha])))]
  · exact drives_ge rest.2 le_rfl rest.1
  · rw [old] at tri
    rw [new, old]
    simp only [List.map_append, List.map_cons] at tri ⊢
    have s1 := tourLength_skip tri v.pos (P.map Visit.pos) (M.map Visit.pos ++ w.pos :: S.map Visit.pos) _ (by simp) (List.mem_cons_self ..)
      (fun q hq => List.mem_cons_of_mem _ hq)
    have s2 := tourLength_skip tri w.pos (P.map Visit.pos ++ M.map Visit.pos) (S.map Visit.pos) _ (by simpa using hS) (List.mem_cons_self ..)
      (fun q hq => List.mem_cons_of_mem _ (by simp only [List.mem_append, List.mem_cons] at hq ⊢; tauto))
    simp only [List.append_assoc] at s2
    exact s2.trans s1
  · intro hf hW
    refine (feas _ hf.timing).itinerary hE rest.2 hW ?_
    intro i j a b l hi hj hl hl'
    rw [new] at hi hj
    rw [old] at before
    have := before (longer P.length M.length i) (longer P.length M.length j) a b l (by rw [longer_getElem?]; exact hi)
      (by rw [longer_getElem?]; exact hj) hl hl'
    by_contra hij
    have := longer_le (p := P.length) (m := M.length) (Nat.le_of_not_lt hij)
    omega

/-- **C133**, in `ReallocationLocalSearchStrategy`: the copy of a route without one of its trips is judged by the constraints on the
remaining visits, whatever verdicts were memoised before; so a feasible route is considered as origin for each of its trips, if no
detour saves time and the shorter schedule does not wait during rides of limited length nor, after the first stop, if the duration of
the tour is limited. -/
theorem C133_reallocation_origins_partial (hE : EnvOK E) (h : Heap) (o t : Nat) (hw : WellFormed h.core o) (ha : CachesAgree E h o)
    (hs : SingleVisits (duties h.core o)) (ht : t ∈ tripsOf h.core o) :
    ∃ r' b h1 h2 h3 h', cloneRoute E o 0 h = (.ok r', h1) ∧ removeTrip E r' t h1 = (.ok (), h2) ∧ flushRoute r' h2 = (.ok (), h3) ∧
      routeFeasible E r' h3 = (.ok b, h') ∧
      (b = true ↔ FeasibleItinerary E (E.vehicle (h.core.route o).vehicle)
        ((itinerary h.core o).filter fun v => decide (t ∉ v.picks ∧ t ∉ v.drops))) ∧
      (NoShortcut E ((E.vehicle (h.core.route o).vehicle).origin.position :: (itinerary h.core o).map Visit.pos) →
        FeasibleItinerary E (E.vehicle (h.core.route o).vehicle) (itinerary h.core o) →
        WaitsOutside E (E.vehicle (h.core.route o).vehicle) ((itinerary h.core o).filter fun v => decide (t ∉ v.picks ∧ t ∉ v.drops)) →
        b = true) := by
  obtain ⟨r', b, h1, h2, h3, h', e1, e2, e3, e4, no⟩ := newOrigin_run hE (Inv.single hw ha) rfl hs ht
  have verdict := no.verdict
  rw [no.visits, no.vehicle] at verdict
  refine ⟨r', b, h1, h2, h3, h', e1, e2, e3, e4, verdict, fun tri hf hW => verdict.2 ?_⟩
  obtain ⟨g, _, _, _, vis, _, _, _, keep⟩ := C133_removal_keeps_feasible_partial hE h o t tri hw ha hs ht
  rw [← vis] at hW ⊢
  exact keep hf hW

/-! ## Witness -/

/-- The demo problem with rides of at most 10 and a third trip that keeps the vehicle busy until 16. -/
def crowdEnv : Env :=
  { demoEnv with
    trip := fun t => if t = 2 then
        { origin := { position := [0], latest := .fin 100 }, destination := { position := [0], latest := .fin 100, duration := 16 } }
      else { demoEnv.trip t with timeout := .fin 10 } }

theorem crowdEnv_ok : EnvOK crowdEnv where
  metric := demoEnv_ok.metric
  originDuration := by intro t; simp only [crowdEnv, demoEnv]; split <;> [simp; (split <;> simp)]
  destinationDuration := by intro t; simp only [crowdEnv, demoEnv]; split <;> [simp; (split <;> simp)]
  capacity := by intro t; simp only [crowdEnv, demoEnv]; split <;> [simp; (split <;> simp)]

/-- The route 0 → pick 2 → drop 2 → pick 0 → pick 1 → drop 1 → drop 0 → 0, built by the insertion strategy. -/
def crowdBuild : M Nat := do
  let r ← newRoute crowdEnv 0
  let rs ← compute crowdEnv true r [2] 0 1
  let r1 ← Py.index rs 0
  let rs ← compute crowdEnv true r1 [0] 2 3
  let r2 ← Py.index rs 0
  let rs ← compute crowdEnv true r2 [1] 3 4
  Py.index rs 0

def crowdHeap : Heap := { (crowdBuild Heap.empty).2 with sfeas := fun _ => none, pfeas := fun _ => none, rfeas := fun _ => none }

theorem crowd_ok : (crowdBuild Heap.empty).1 = .ok 3 ∧ WellFormed crowdHeap.core 3 ∧ CachesAgree crowdEnv crowdHeap 3 :=
  ⟨by decide +kernel, wfB_sound (by decide +kernel), agreeB_sound (by decide +kernel)⟩

theorem crowd_driver : (crowdHeap.core.route 3).vehicle = 0 := by decide +kernel

theorem crowd_noShortcut : NoShortcut crowdEnv ((crowdEnv.vehicle (crowdHeap.core.route 3).vehicle).origin.position ::
    (itinerary crowdHeap.core 3).map Visit.pos) := by
  rw [crowd_driver]
  unfold NoShortcut
  decide +kernel

theorem crowd_single : SingleVisits (duties crowdHeap.core 3) := by
  unfold SingleVisits
  decide +kernel

theorem crowd_feasible : FeasibleItinerary crowdEnv (crowdEnv.vehicle (crowdHeap.core.route 3).vehicle) (itinerary crowdHeap.core 3) := by
  obtain ⟨b, h', e, hb, _⟩ := C18_feasible_iff_constraints crowdEnv_ok crowdHeap 3 crowd_ok.2.1 crowd_ok.2.2
    ⟨rfl, fun _ _ => rfl, fun _ _ _ _ => rfl⟩
  have : (routeFeasible crowdEnv 3 crowdHeap).1 = .ok true := by decide +kernel
  rw [e] at this
  cases this
  exact hb.1 rfl

/-- Before: the first passenger is picked up late, leaves at 19 and arrives at 27. After removing the third trip they are picked up at
once, leave at 3, wait on board for the second passenger and arrive at 26. -/
theorem crowd_times : (routeTimetable crowdEnv crowdHeap.core 3).map (fun x => (x.start, x.dep)) =
      [(0, 0), (0, 0), (0, 16), (18, 19), (21, 21), (23, 25), (27, 27), (35, 35)] ∧
    (routeTimetable crowdEnv (removeTrip crowdEnv 3 2 crowdHeap).2.core 3).map (fun x => (x.start, x.dep)) =
      [(0, 0), (2, 3), (20, 20), (22, 24), (26, 26), (34, 34)] := by
  decide +kernel

/-- `RemovalKeepsFeasible` is false: without the third trip the ride of the first takes longer than allowed. -/
theorem C133_earlier_pickup_longer_ride : ¬ RemovalKeepsFeasible := by
  intro claim
  obtain ⟨h', e, hf⟩ := claim crowdEnv crowdHeap 3 2 crowdEnv_ok crowd_noShortcut crowd_ok.2.1 crowd_ok.2.2 crowd_single (by decide +kernel)
    crowd_feasible
  have e' : h' = (removeTrip crowdEnv 3 2 crowdHeap).2 := by rw [e]
  subst e'
  have hv : ((removeTrip crowdEnv 3 2 crowdHeap).2.core.route 3).vehicle = 0 := by decide +kernel
  rw [hv] at hf
  have ok := hf.trips 1 4 ⟨[2], none, [0], []⟩ ⟨[8], none, [], [0]⟩ ⟨2, 2, 3⟩ ⟨26, 26, 26⟩ 1 0 0 (by decide +kernel) (by decide +kernel)
    (by decide +kernel) (by decide +kernel) (by decide +kernel) (by decide +kernel) (by simp) (by simp)
  exact absurd ok.ride (by decide +kernel)

/-- Taking the second trip away instead meets the condition of C133 and leaves a feasible route. -/
example : ∃ h', removeTrip crowdEnv 3 1 crowdHeap = (.ok (), h') ∧ (itinerary h'.core 3).map Visit.pos = [[0], [0], [0], [2], [8], [0]] ∧
    FeasibleItinerary crowdEnv (crowdEnv.vehicle 0) (itinerary h'.core 3) := by
  obtain ⟨h', e, _, _, _, _, _, _, hf⟩ := C133_removal_keeps_feasible_partial crowdEnv_ok crowdHeap 3 1 crowd_noShortcut crowd_ok.2.1
    crowd_ok.2.2 crowd_single (by decide +kernel)
  have e' : h' = (removeTrip crowdEnv 3 1 crowdHeap).2 := by rw [e]
  subst e'
  rw [crowd_driver] at hf
  refine ⟨_, e, by decide +kernel, hf (by have := crowd_feasible; rwa [crowd_driver] at this) ⟨?_, fun h => absurd rfl h⟩⟩
  intro i j k v w x t _ hw _ _ _ _ hk hx
  have hlen : (itinerary (removeTrip crowdEnv 3 1 crowdHeap).2.core 3).length = 6 := by decide +kernel
  have hj : j < 6 := by rw [← hlen]; exact (List.getElem?_eq_some_iff.1 hw).1
  have all : ∀ k < 6, ∀ x ∈ (vehicleTimetable crowdEnv (crowdEnv.vehicle 0) (itinerary (removeTrip crowdEnv 3 1 crowdHeap).2.core 3))[k]?,
      x.start = x.arr := by decide +kernel
  exact all k (by omega) x hx

/-- The demo problem, with ways of length 4, such as that from the depot to the second pickup, taking 200. -/
def jamEnv : Env := { demoEnv with metric := fun a b => if manhattan a b = 4 then 200 else manhattan a b }

/-- The condition on detours is needed, even without any limits on rides and tours: the constraints hold for the demo route, which
reaches the second pickup by a detour, and no longer hold without the first trip. -/
theorem C133_shortcuts_matter : EnvOK jamEnv ∧ (∀ t, (jamEnv.trip t).timeout = .inf) ∧ (jamEnv.vehicle 0).timeout = .inf ∧
    SingleVisits (duties demoFreshHeap.core 2) ∧ 0 ∈ tripsOf demoFreshHeap.core 2 ∧
    FeasibleItinerary jamEnv (jamEnv.vehicle 0) (itinerary demoFreshHeap.core 2) ∧
    (removeTrip jamEnv 2 0 demoFreshHeap).1 = .ok () ∧
    ¬ FeasibleItinerary jamEnv (jamEnv.vehicle 0) (itinerary (removeTrip jamEnv 2 0 demoFreshHeap).2.core 2) := by
  have ok : EnvOK jamEnv :=
    ⟨fun a b => by simp only [jamEnv]; split <;> [norm_num; exact manhattan_nonneg a b], demoEnv_ok.originDuration,
      demoEnv_ok.destinationDuration, demoEnv_ok.capacity⟩
  refine ⟨ok, fun t => by simp only [jamEnv, demoEnv]; split <;> rfl, rfl, by unfold SingleVisits; decide +kernel, by decide +kernel, ?_,
    by decide +kernel, ?_⟩
  · obtain ⟨b, h', e, hb, _⟩ := C18_feasible_iff_constraints ok demoFreshHeap 2 demo_ok.2.1 (agreeB_sound (by decide +kernel))
      ⟨rfl, fun _ _ => rfl, fun _ _ _ _ => rfl⟩
    have : (routeFeasible jamEnv 2 demoFreshHeap).1 = .ok true := by decide +kernel
    rw [e] at this
    cases this
    rw [demo_driver] at hb
    exact hb.1 rfl
  · intro hf
    have ok := hf.trips 1 2 ⟨[4], none, [1], []⟩ ⟨[6], none, [], [1]⟩ ⟨200, 200, 200⟩ ⟨202, 202, 204⟩ 1 0 1 (by decide +kernel) (by decide +kernel)
      (by decide +kernel) (by decide +kernel) (by decide +kernel) (by decide +kernel) (by simp) (by simp)
    exact absurd ok.pickLatest (by decide +kernel)

end Jinete
