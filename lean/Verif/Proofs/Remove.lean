import Verif.Proofs.Append

/-!
# `remove_trip`
-/

set_option autoImplicit false

namespace Jinete

variable {E : Env}

theorem removeTripLoop_skip {h : Heap} {r t : Nat} {l : List Nat} (e : (h.core.route r).stops = l) (m k : Nat)
    (hk : m + k ≤ l.length) (hn : ∀ i s, m ≤ i → i < m + k → l[i]? = some s → t ∉ stopTrips h.core s) :
    removeTripLoop r t (m + k) h = removeTripLoop r t m h := by
  induction k with
  | zero => rfl
  | succ k ih =>
    rw [← Nat.add_assoc, removeTripLoop]
    have h1 : routeStops r h = (.ok l, h) := by simp [routeStops, e]
    have hlt : m + k < l.length := by omega
    have h2 : Py.index l (m + k) h = (.ok l[m + k], h) := by simp [Py.index, hlt]
    rw [Py.bind_ok h1, Py.bind_ok h2]
    simp only [Py.read_bind]
    rw [if_neg (hn (m + k) l[m + k] (by omega) (by omega) (by simp [hlt]))]
    exact ih (by omega) (fun i s h1 h2 h3 => hn i s h1 (by omega) h3)

theorem removeTripLoop_hit {h h' : Heap} {r t i s x : Nat} (hs : (h.core.route r).stops[i]? = some s)
    (ht : t ∈ stopTrips h.core s) (hr : removeStopAt r i h = (.ok x, h')) :
    removeTripLoop r t (i + 1) h = removeTripLoop r t i h' := by
  rw [removeTripLoop]
  have h1 : routeStops r h = (.ok (h.core.route r).stops, h) := by simp [routeStops]
  have h2 : Py.index (h.core.route r).stops i h = (.ok s, h) := by simp [Py.index, hs]
  rw [Py.bind_ok h1, Py.bind_ok h2]
  simp only [Py.read_bind]
  rw [if_pos ht, Py.bind_ok hr]

theorem stopTrips_afterRemove (h : Heap) (r a b : Nat) (pre suf : List Nat) (x : Nat) :
    stopTrips (afterRemove h r a b pre suf).core x = stopTrips h.core x := by
  unfold stopTrips
  rw [afterRemove_stop, afterRemove_pt]
  by_cases hx : x = b <;> simp [hx]

theorem stopTrips_visit (c : Core) (x : Nat) : stopTrips c x = (visitOf c x).picks ++ (visitOf c x).drops := by
  simp [stopTrips, visitOf]

/-- Last element of a non-empty list. -/
theorem exists_concat {l : List Nat} (h : l ≠ []) : ∃ q b, l = q ++ [b] := by
  rcases List.eq_nil_or_concat l with h0 | ⟨q, b, h0⟩
  · exact absurd h0 h
  · exact ⟨q, b, by simpa using h0⟩

/-- `remove_trip` on a chained route in which the trip is served exactly at the stops `u` and `d`; `P` is a property that
removing stops of the route preserves. -/
theorem removeTrip_keeps (hE : EnvOK E) {h : Heap} {r t u d : Nat} {pre mid suf : List Nat}
    (hc : Chained h.core r) (ha : CachesAgree E h r) (e : (h.core.route r).stops = pre ++ u :: (mid ++ d :: suf))
    (hpre : pre ≠ []) (hsuf : suf ≠ []) (hu : t ∈ stopTrips h.core u) (hd : t ∈ stopTrips h.core d)
    (ho : ∀ x ∈ pre ++ mid ++ suf, t ∉ stopTrips h.core x) {P : Heap → Prop} (hP : P h)
    (step : ∀ g a b p q, P g → (∀ x ∈ b :: q, x ∈ (h.core.route r).stops) → P (afterRemove g r a b p q)) :
    ∃ h1 h', removeTrip E r t h = (.ok (), h') ∧ Grows E h1 h' ∧
      (h1.core.route r).stops = pre ++ mid ++ suf ∧ (h1.core.route r).vehicle = (h.core.route r).vehicle ∧
      (∀ r', r' ≠ r → h1.core.route r' = h.core.route r') ∧
      (∀ x, ∃ q, h1.core.stop x = { h.core.stop x with previous := q }) ∧
      h1.core.pt = h.core.pt ∧ h1.core.nStop = h.core.nStop ∧ h1.core.nPt = h.core.nPt ∧ h1.core.nRoute = h.core.nRoute ∧
      Chained h1.core r ∧ CachesAgree E h1 r ∧ P h1 := by
  obtain ⟨pre', a, rfl⟩ := exists_concat hpre
  obtain ⟨b, suf', rfl⟩ : ∃ b s, suf = b :: s := by
    cases suf with
    | nil => exact absurd rfl hsuf
    | cons b s => exact ⟨b, s, rfl⟩
  obtain ⟨q, y, hq⟩ := exists_concat (l := u :: mid) (by simp)
  have hql : q.length = mid.length := by
    have := congrArg List.length hq; simpa using this.symm
  unfold removeTrip
  have h1 : routeStops r h = (.ok (h.core.route r).stops, h) := by simp [routeStops]
  rw [Py.bind_ok h1]
  -- the stops after `d`
  have len : (h.core.route r).stops.length = (pre'.length + 1 + q.length + 1) + 1 + (suf'.length + 1) := by
    rw [e, hql]; simp; omega
  have eP : (h.core.route r).stops = (pre' ++ [a] ++ q) ++ y :: d :: b :: suf' := by
    rw [e]
    have : pre' ++ [a] ++ u :: (mid ++ d :: b :: suf') = pre' ++ [a] ++ (u :: mid) ++ d :: b :: suf' := by simp
    rw [this, hq]; simp
  have s1 : removeTripLoop r t (h.core.route r).stops.length h =
      removeTripLoop r t ((pre'.length + 1 + q.length + 1) + 1) h := by
    rw [len]
    refine removeTripLoop_skip rfl _ _ (by rw [len]) ?_
    intro i s hi _ hs
    apply ho
    rw [eP, List.getElem?_append_right (by simp; omega)] at hs
    have : i - (pre' ++ [a] ++ q).length = (i - (pre'.length + 1 + q.length + 2)) + 2 := by simp; omega
    rw [this] at hs
    simp only [List.getElem?_cons_succ] at hs
    exact List.mem_append_right _ (List.mem_of_getElem? hs)
  -- remove `d`
  have r1 := removeStopAt_run (r := r) eP
  have hidx : (pre' ++ [a] ++ q).length + 1 = pre'.length + 1 + q.length + 1 := by simp; omega
  rw [hidx] at r1
  have s2 := removeTripLoop_hit (h := h) (t := t) (s := d) (i := pre'.length + 1 + q.length + 1)
    (by rw [eP, ← hidx, List.getElem?_append_right (by omega)]; simp) hd r1
  obtain ⟨hc1, ha1⟩ := afterRemove_ok (E := E) hc ha eP
  have p1 : P (afterRemove h r y b (pre' ++ [a] ++ q) suf') := by
    refine step _ _ _ _ _ hP fun x hx => ?_
    rw [eP]
    exact List.mem_append_right _ (List.mem_cons_of_mem _ (List.mem_cons_of_mem _ hx))
  generalize hh1 : afterRemove h r y b (pre' ++ [a] ++ q) suf' = g1 at *
  -- the stops between
  have eg1 : (g1.core.route r).stops = pre' ++ a :: u :: (mid ++ b :: suf') := by
    rw [← hh1, afterRemove_stops]
    have : pre' ++ [a] ++ q ++ y :: b :: suf' = pre' ++ [a] ++ (q ++ [y]) ++ b :: suf' := by simp
    rw [this, ← hq]; simp
  have s3 : removeTripLoop r t (pre'.length + 1 + q.length + 1) g1 = removeTripLoop r t (pre'.length + 1 + 1) g1 := by
    have : pre'.length + 1 + q.length + 1 = (pre'.length + 1 + 1) + q.length := by omega
    rw [this]
    refine removeTripLoop_skip eg1 _ _ (by rw [hql]; simp; omega) ?_
    intro i s hi hi2 hs
    rw [← hh1, stopTrips_afterRemove]
    apply ho
    rw [List.getElem?_append_right (by omega)] at hs
    have h3 : i - pre'.length = (i - (pre'.length + 2)) + 2 := by omega
    rw [h3] at hs
    simp only [List.getElem?_cons_succ] at hs
    rw [List.getElem?_append_left (by omega)] at hs
    exact List.mem_append_left _ (List.mem_append_right _ (List.mem_of_getElem? hs))
  -- remove `u`
  obtain ⟨f, rest, hms⟩ : ∃ f rest, mid ++ b :: suf' = f :: rest := by
    cases hh : mid ++ b :: suf' with
    | nil => simp at hh
    | cons f s => exact ⟨f, s, rfl⟩
  have eg1' : (g1.core.route r).stops = pre' ++ a :: u :: f :: rest := by rw [eg1, hms]
  have r2 := removeStopAt_run (r := r) eg1'
  have hu1 : t ∈ stopTrips g1.core u := by rw [← hh1, stopTrips_afterRemove]; exact hu
  have s4 := removeTripLoop_hit (h := g1) (t := t) (s := u) (i := pre'.length + 1)
    (by rw [eg1, List.getElem?_append_right (by omega)]; simp) hu1 r2
  obtain ⟨hc2, ha2⟩ := afterRemove_ok (E := E) hc1 ha1 eg1'
  have p2 : P (afterRemove g1 r a f pre' rest) := by
    refine step _ _ _ _ _ p1 fun x hx => ?_
    rw [e]
    rw [← hms] at hx
    refine List.mem_append_right _ (List.mem_cons_of_mem _ ?_)
    rcases List.mem_append.1 hx with hx | hx
    · exact List.mem_append_left _ hx
    · exact List.mem_append_right _ (List.mem_cons_of_mem _ hx)
  have eg2 : ((afterRemove g1 r a f pre' rest).core.route r).stops = pre' ++ [a] ++ mid ++ b :: suf' := by
    rw [afterRemove_stops, ← hms]; simp
  have s5 : removeTripLoop r t (pre'.length + 1) (afterRemove g1 r a f pre' rest) =
      removeTripLoop r t 0 (afterRemove g1 r a f pre' rest) := by
    have := removeTripLoop_skip (t := t) eg2 0 (pre'.length + 1) (by simp) (by
      intro i s _ hi hs
      rw [stopTrips_afterRemove, ← hh1, stopTrips_afterRemove]
      apply ho
      rw [List.append_assoc, List.getElem?_append_left (by simpa using hi)] at hs
      exact List.mem_append_left _ (List.mem_append_left _ (List.mem_of_getElem? hs)))
    simpa using this
  have loop : removeTripLoop r t (h.core.route r).stops.length h = (.ok (), afterRemove g1 r a f pre' rest) := by
    rw [s1, s2, s3, s4, s5, removeTripLoop]; rfl
  rw [Py.bind_ok loop]
  have h2 : routeStops r (afterRemove g1 r a f pre' rest) =
      (.ok ((afterRemove g1 r a f pre' rest).core.route r).stops, afterRemove g1 r a f pre' rest) := by simp [routeStops]
  rw [Py.bind_ok h2]
  have h3 : (decide (((h.core.route r).stops.length : Int) - 2 =
      ((afterRemove g1 r a f pre' rest).core.route r).stops.length)) = true := by
    rw [e, eg2]
    simp only [List.length_append, List.length_cons, List.length_nil, decide_eq_true_eq]
    push_cast
    omega
  rw [h3, Py.bind_ok (Py.assert_true _)]
  simp only [Py.read_bind]
  rw [linkedCheck_of_linked hc2.linked, Py.bind_ok (Py.assert_true _)]
  obtain ⟨h4, e4, g4⟩ := timesCheck_reads hE hc2 [] _ rfl (afterRemove g1 r a f pre' rest) rfl
    ((cachesAgree_iff hc2).1 ha2)
  rw [Py.bind_ok e4]
  refine ⟨_, h4, Py.assert_true h4, g4, eg2, ?_, ?_, ?_, ?_, ?_, ?_, ?_, hc2, ha2, p2⟩
  · rw [afterRemove_vehicle, ← hh1, afterRemove_vehicle]
  · intro r' hr'; rw [afterRemove_route_ne hr', ← hh1, afterRemove_route_ne hr']
  · intro x
    rw [afterRemove_stop, ← hh1]
    simp only [afterRemove_stop]
    by_cases h1 : x = f
    · subst h1
      by_cases h2 : x = b
      · subst h2; exact ⟨some a, by simp⟩
      · exact ⟨some a, by simp [h2]⟩
    · by_cases h2 : x = b
      · subst h2; exact ⟨some y, by simp [h1]⟩
      · exact ⟨(h.core.stop x).previous, by simp [h1, h2]⟩
  · rw [afterRemove_pt, ← hh1, afterRemove_pt]
  · rw [afterRemove_nStop, ← hh1, afterRemove_nStop]
  · rw [afterRemove_nPt, ← hh1, afterRemove_nPt]
  · rw [afterRemove_nRoute, ← hh1, afterRemove_nRoute]

/-- `remove_trip` on a chained route in which the trip is served exactly at the stops `u` and `d`. -/
theorem removeTrip_run (hE : EnvOK E) {h : Heap} {r t u d : Nat} {pre mid suf : List Nat}
    (hc : Chained h.core r) (ha : CachesAgree E h r) (e : (h.core.route r).stops = pre ++ u :: (mid ++ d :: suf))
    (hpre : pre ≠ []) (hsuf : suf ≠ []) (hu : t ∈ stopTrips h.core u) (hd : t ∈ stopTrips h.core d)
    (ho : ∀ x ∈ pre ++ mid ++ suf, t ∉ stopTrips h.core x) :
    ∃ h1 h', removeTrip E r t h = (.ok (), h') ∧ Grows E h1 h' ∧
      (h1.core.route r).stops = pre ++ mid ++ suf ∧ (h1.core.route r).vehicle = (h.core.route r).vehicle ∧
      (∀ r', r' ≠ r → h1.core.route r' = h.core.route r') ∧
      (∀ x, ∃ q, h1.core.stop x = { h.core.stop x with previous := q }) ∧
      h1.core.pt = h.core.pt ∧ h1.core.nStop = h.core.nStop ∧ h1.core.nPt = h.core.nPt ∧ h1.core.nRoute = h.core.nRoute ∧
      Chained h1.core r ∧ CachesAgree E h1 r := by
  obtain ⟨h1, h', a1, a2, a3, a4, a5, a6, a7, a8, a9, a10, a11, a12, _⟩ :=
    removeTrip_keeps hE hc ha e hpre hsuf hu hd ho (P := fun _ => True) trivial (fun _ _ _ _ _ _ _ => trivial)
  exact ⟨h1, h', a1, a2, a3, a4, a5, a6, a7, a8, a9, a10, a11, a12⟩

end Jinete
