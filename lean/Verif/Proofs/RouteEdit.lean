import Verif.Proofs.Modify

/-!
# Editing the stop list of a route
-/

set_option autoImplicit false

namespace Jinete

variable {E : Env}

/-- Nothing memoised about times and load at `s`. -/
structure Blank (h : Heap) (s : Nat) : Prop where
  arr : h.arr s = none
  dep : h.dep s = none
  cap : h.cap s = none

/-- Attributes and memoised numbers of `s` are the same in both heaps. -/
structure SameStop (h h' : Heap) (s : Nat) : Prop where
  visit : SameVisit h.core h'.core s
  previous : (h'.core.stop s).previous = (h.core.stop s).previous
  arr : h'.arr s = h.arr s
  dep : h'.dep s = h.dep s
  cap : h'.cap s = h.cap s

theorem SameStop.refl (h : Heap) (s : Nat) : SameStop h h s := ⟨⟨rfl, rfl⟩, rfl, rfl, rfl, rfl⟩

theorem SameStop.trans {h1 h2 h3 : Heap} {s : Nat} (a : SameStop h1 h2 s) (b : SameStop h2 h3 s) : SameStop h1 h3 s :=
  ⟨⟨b.visit.visit.trans a.visit.visit, b.visit.vehicle.trans a.visit.vehicle⟩, b.previous.trans a.previous,
    b.arr.trans a.arr, b.dep.trans a.dep, b.cap.trans a.cap⟩

theorem Blank.coh {h : Heap} {s : Nat} (b : Blank h s) : CohAt E h s := cohAt_none b.arr b.dep b.cap

theorem flushStops_blank {h : Heap} {l : List Nat} {s : Nat} (hs : s ∈ l) : Blank (flushStops h l) s :=
  ⟨by simp [flushStops_arr, hs], by simp [flushStops_dep, hs], by simp [flushStops_cap, hs]⟩

/-- Coherence of a linked list of stops all of which are unchanged. -/
theorem coh_prefix {h h' : Heap} {pre : List Nat} (hl : Linked h.core pre) (hco : ∀ s ∈ pre, CohAt E h s)
    (hs : ∀ s ∈ pre, SameStop h h' s) : ∀ s ∈ pre, CohAt E h' s := by
  intro s hsm
  obtain ⟨a, b, e⟩ := List.append_of_mem hsm
  have hl' : Linked h'.core pre := hl.congr fun x hx => (hs x hx).previous
  refine (hco s hsm).congr (hl.anc e) (hl'.anc e) ?_ (.inl (hs s hsm).arr) (.inl (hs s hsm).dep) (.inl (hs s hsm).cap)
  intro x hx
  exact (hs x (sub_of_split e x hx)).visit

/-- Replacing the tail of a chained route by blank, correctly linked stops keeps it chained and
coherent. -/
theorem splice_ok {h h' : Heap} {r : Nat} {pre suf suf' : List Nat} (hc : Chained h.core r)
    (ha : CachesAgree E h r) (e : (h.core.route r).stops = pre ++ suf) (e' : (h'.core.route r).stops = pre ++ suf')
    (hveh : (h'.core.route r).vehicle = (h.core.route r).vehicle) (hn : h.core.nStop ≤ h'.core.nStop)
    (hnd : (pre ++ suf').Nodup) (hpre : ∀ x ∈ pre, SameStop h h' x) (hl : LinkedFrom h'.core pre.getLast? suf')
    (halloc : ∀ x ∈ suf', x < h'.core.nStop) (hv : ∀ x ∈ suf', (h'.core.stop x).vehicle = (h.core.route r).vehicle)
    (hb : ∀ x ∈ suf', Blank h' x) : Chained h'.core r ∧ CachesAgree E h' r := by
  have hcl := hc.linked
  rw [e] at hcl
  have hc' : Chained h'.core r := by
    constructor
    · rw [e']; exact hnd
    · rw [e']; intro s hs
      rcases List.mem_append.1 hs with hs | hs
      · exact lt_of_lt_of_le (hc.alloc s (by rw [e]; exact List.mem_append_left _ hs)) hn
      · exact halloc s hs
    · rw [e', linked_append]
      exact ⟨hcl.prefix.congr fun x hx => (hpre x hx).previous, hl⟩
    · rw [e', hveh]; intro s hs
      rcases List.mem_append.1 hs with hs | hs
      · rw [(hpre s hs).visit.vehicle]
        exact hc.vehicle s (by rw [e]; exact List.mem_append_left _ hs)
      · exact hv s hs
  refine ⟨hc', (cachesAgree_iff hc').2 ?_⟩
  rw [e']
  have hco := (cachesAgree_iff hc).1 ha
  rw [e] at hco
  intro s hs
  rcases List.mem_append.1 hs with hs | hs
  · exact coh_prefix hcl.prefix (fun x hx => hco x (List.mem_append_left _ hx)) hpre s hs
  · exact (hb s hs).coh

/-! ## `insert_stop_at`, `insert_stop`, `remove_stop_at` -/

/-- The heap after inserting `s` before `f`. -/
def afterInsert (h : Heap) (r s f : Nat) (pre suf : List Nat) : Heap :=
  flushStops ((h.setStop f { h.core.stop f with previous := some s }).setRoute r
    { h.core.route r with stops := pre ++ s :: f :: suf }) (s :: f :: suf)

theorem insertIdx_length {α : Type} (pre suf : List α) (s : α) :
    (pre ++ suf).insertIdx pre.length s = pre ++ s :: suf := by
  induction pre with
  | nil => simp
  | cons x pre ih => simpa using ih

theorem insertStopAt_run {h : Heap} {r s f : Nat} {pre suf : List Nat}
    (e : (h.core.route r).stops = pre ++ f :: suf)
    (hd : ∀ p ∈ (h.core.stop s).pickups, p ∉ (h.core.stop s).deliveries) :
    insertStopAt r pre.length s h = (.ok ((f :: suf).getLast?.getD s), afterInsert h r s f pre suf) := by
  unfold insertStopAt
  have h1 : routeStops r h = (.ok (pre ++ f :: suf), h) := by simp [routeStops, e]
  rw [Py.bind_ok h1]
  have h2 : Py.index (pre ++ f :: suf) pre.length h = (.ok f, h) := by simp [Py.index]
  rw [Py.bind_ok h2]
  simp only [Py.read_bind]
  have h3 : ((h.core.stop s).pickups.all fun p => !(h.core.stop s).deliveries.contains p) = true := by
    simpa using hd
  rw [h3, Py.bind_ok (Py.assert_true h)]
  simp only [Py.modify_bind, Py.read_bind]
  have h4 : (h.core.route r).stops.insertIdx pre.length s = pre ++ s :: f :: suf := by
    rw [e]
    exact insertIdx_length pre (f :: suf) s
  simp only [Heap.setStop, Heap.setRoute, Function.update_self, h4, List.drop_left, Py.pure_run,
    afterInsert, List.getLast?_cons_cons]

theorem insertStop_run {h : Heap} {r s p f : Nat} {pre suf : List Nat} (hn : (h.core.route r).stops.Nodup)
    (e : (h.core.route r).stops = pre ++ p :: f :: suf) (hp : (h.core.stop s).previous = some p)
    (hd : ∀ p ∈ (h.core.stop s).pickups, p ∉ (h.core.stop s).deliveries) :
    insertStop r s h = (.ok ((f :: suf).getLast?.getD s), afterInsert h r s f (pre ++ [p]) suf) := by
  unfold insertStop
  simp only [Py.read_bind, hp]
  have hmem : p ∈ (h.core.route r).stops := by rw [e]; simp
  have hnp : p ∉ pre := by
    rw [e] at hn
    intro hx
    exact (List.disjoint_of_nodup_append hn) hx (by simp)
  have hidx : (h.core.route r).stops.idxOf p = pre.length := by
    rw [e, List.idxOf_append_of_notMem hnp]; simp
  rw [if_pos hmem, hidx]
  have e' : (h.core.route r).stops = (pre ++ [p]) ++ f :: suf := by simp [e]
  have := insertStopAt_run e' hd
  simpa using this

theorem insertStop_missing {h : Heap} {r s p : Nat} (hp : (h.core.stop s).previous = some p)
    (hm : p ∉ (h.core.route r).stops) : insertStop r s h = (.error .previousStopNotInRoute, h) := by
  unfold insertStop
  simp [hp, hm]

section
variable {h : Heap} {r s f : Nat} {pre suf : List Nat}

@[simp] theorem afterInsert_stops : ((afterInsert h r s f pre suf).core.route r).stops = pre ++ s :: f :: suf := by
  simp [afterInsert, Heap.setRoute]

@[simp] theorem afterInsert_vehicle :
    ((afterInsert h r s f pre suf).core.route r).vehicle = (h.core.route r).vehicle := by
  simp [afterInsert, Heap.setRoute]

theorem afterInsert_route_ne {r' : Nat} (hr : r' ≠ r) :
    (afterInsert h r s f pre suf).core.route r' = h.core.route r' := by
  simp [afterInsert, Heap.setRoute, Heap.setStop, hr]

theorem afterInsert_stop (x : Nat) : (afterInsert h r s f pre suf).core.stop x =
    if x = f then { h.core.stop f with previous := some s } else h.core.stop x := by
  simp [afterInsert, Heap.setRoute, Heap.setStop, Function.update]

@[simp] theorem afterInsert_pt : (afterInsert h r s f pre suf).core.pt = h.core.pt := by
  simp [afterInsert, Heap.setRoute, Heap.setStop]
@[simp] theorem afterInsert_nStop : (afterInsert h r s f pre suf).core.nStop = h.core.nStop := by
  simp [afterInsert, Heap.setRoute, Heap.setStop]
@[simp] theorem afterInsert_nPt : (afterInsert h r s f pre suf).core.nPt = h.core.nPt := by
  simp [afterInsert, Heap.setRoute, Heap.setStop]
@[simp] theorem afterInsert_nRoute : (afterInsert h r s f pre suf).core.nRoute = h.core.nRoute := by
  simp [afterInsert, Heap.setRoute, Heap.setStop]
@[simp] theorem afterInsert_sfeas : (afterInsert h r s f pre suf).sfeas = h.sfeas := by
  simp [afterInsert, Heap.setRoute, Heap.setStop]
@[simp] theorem afterInsert_rfeas : (afterInsert h r s f pre suf).rfeas = h.rfeas := by
  simp [afterInsert, Heap.setRoute, Heap.setStop]

theorem afterInsert_visit (x : Nat) : visitOf (afterInsert h r s f pre suf).core x = visitOf h.core x := by
  unfold visitOf
  rw [afterInsert_stop]
  by_cases hx : x = f <;> simp [hx]

theorem afterInsert_vehicleOf (x : Nat) :
    ((afterInsert h r s f pre suf).core.stop x).vehicle = (h.core.stop x).vehicle := by
  rw [afterInsert_stop]; by_cases hx : x = f <;> simp [hx]

theorem afterInsert_same {x : Nat} (hx : x ∉ s :: f :: suf) : SameStop h (afterInsert h r s f pre suf) x := by
  refine ⟨⟨afterInsert_visit x, afterInsert_vehicleOf x⟩, ?_, ?_, ?_, ?_⟩
  · rw [afterInsert_stop, if_neg]
    rintro rfl; exact hx (by simp)
  · unfold afterInsert; rw [flushStops_arr, if_neg hx]; rfl
  · unfold afterInsert; rw [flushStops_dep, if_neg hx]; rfl
  · unfold afterInsert; rw [flushStops_cap, if_neg hx]; rfl

theorem afterInsert_blank {x : Nat} (hx : x ∈ s :: f :: suf) : Blank (afterInsert h r s f pre suf) x :=
  flushStops_blank hx

/-- Inserting a linked stop in a chained route. -/
theorem afterInsert_ok (hc : Chained h.core r) (ha : CachesAgree E h r)
    (e : (h.core.route r).stops = pre ++ f :: suf) (hp : (h.core.stop s).previous = pre.getLast?)
    (hs : s ∉ (h.core.route r).stops) (hsn : s < h.core.nStop) (hsv : (h.core.stop s).vehicle = (h.core.route r).vehicle) :
    Chained (afterInsert h r s f pre suf).core r ∧ CachesAgree E (afterInsert h r s f pre suf) r := by
  have hn := hc.nodup
  have hs' : s ∉ pre ++ f :: suf := by rw [← e]; exact hs
  rw [e] at hn
  have hl := hc.linked
  rw [e, linked_append] at hl
  have hsf : s ≠ f := by rintro rfl; exact hs' (by simp)
  refine splice_ok hc ha e afterInsert_stops afterInsert_vehicle (by simp) ?_ ?_ ?_ ?_ ?_ ?_
  · rw [List.nodup_append] at hn ⊢
    refine ⟨hn.1, List.nodup_cons.2 ⟨fun h => hs' (List.mem_append_right _ h), hn.2.1⟩, ?_⟩
    intro a ha b hb
    rcases List.mem_cons.1 hb with rfl | hb
    · rintro rfl; exact hs' (List.mem_append_left _ ha)
    · exact hn.2.2 a ha b hb
  · intro x hx
    apply afterInsert_same
    intro hm
    rcases List.mem_cons.1 hm with rfl | hm
    · exact hs' (List.mem_append_left _ hx)
    · exact (List.disjoint_of_nodup_append hn) hx hm
  · refine ⟨?_, ?_, ?_⟩
    · rw [afterInsert_stop, if_neg hsf]; exact hp
    · rw [afterInsert_stop, if_pos rfl]
    · refine hl.2.2.congr fun x hx => ?_
      rw [afterInsert_stop, if_neg]
      rintro rfl
      have := hn.of_append_right
      exact (List.nodup_cons.1 this).1 hx
  · intro x hx
    rw [afterInsert_nStop]
    rcases List.mem_cons.1 hx with rfl | hx
    · exact hsn
    · exact hc.alloc x (by rw [e]; exact List.mem_append_right _ hx)
  · intro x hx
    rw [afterInsert_vehicleOf]
    rcases List.mem_cons.1 hx with rfl | hx
    · exact hsv
    · exact hc.vehicle x (by rw [e]; exact List.mem_append_right _ hx)
  · intro x hx; exact afterInsert_blank hx

end

/-- The heap after removing the stop between `a` and `b`. -/
def afterRemove (h : Heap) (r a b : Nat) (pre suf : List Nat) : Heap :=
  flushStops ((h.setStop b { h.core.stop b with previous := some a }).setRoute r
    { h.core.route r with stops := pre ++ a :: b :: suf }) (b :: suf)

theorem removeStopAt_run {h : Heap} {r a x b : Nat} {pre suf : List Nat}
    (e : (h.core.route r).stops = pre ++ a :: x :: b :: suf) :
    removeStopAt r (pre.length + 1) h = (.ok x, afterRemove h r a b pre suf) := by
  unfold removeStopAt
  have h1 : routeStops r h = (.ok (pre ++ a :: x :: b :: suf), h) := by simp [routeStops, e]
  rw [Py.bind_ok h1]
  have h2 : indexPred (pre ++ a :: x :: b :: suf) (pre.length + 1) h = (.ok a, h) := by
    simp [indexPred, Py.index]
  rw [Py.bind_ok h2]
  have h3 : Py.index (pre ++ a :: x :: b :: suf) (pre.length + 1 + 1) h = (.ok b, h) := by
    have : (pre ++ a :: x :: b :: suf)[pre.length + 1 + 1]? = some b := by
      rw [List.getElem?_append_right (by omega)]
      simp [show pre.length + 1 + 1 - pre.length = 2 by omega]
    simp only [Py.index, this]; rfl
  rw [Py.bind_ok h3]
  simp only [Py.modify_bind]
  have h4 : ∀ h' : Heap, Py.index (pre ++ a :: x :: b :: suf) (pre.length + 1) h' = (.ok x, h') := by
    intro h'
    have : (pre ++ a :: x :: b :: suf)[pre.length + 1]? = some x := by
      rw [List.getElem?_append_right (by omega)]
      simp
    simp only [Py.index, this]; rfl
  rw [Py.bind_ok (h4 _)]
  simp only [Py.modify_bind, Py.read_bind]
  have h5 : (h.core.route r).stops.eraseIdx (pre.length + 1) = pre ++ a :: b :: suf := by
    rw [e, List.eraseIdx_append_of_length_le (by omega)]
    simp
  have h6 : (pre ++ a :: b :: suf).drop (pre.length + 1) = b :: suf := by
    rw [List.drop_append]; simp
  simp only [Heap.setStop, Heap.setRoute, Function.update_self, h5, h6, Py.pure_run, afterRemove]

section
variable {h : Heap} {r a b : Nat} {pre suf : List Nat}

@[simp] theorem afterRemove_stops : ((afterRemove h r a b pre suf).core.route r).stops = pre ++ a :: b :: suf := by
  simp [afterRemove, Heap.setRoute]
@[simp] theorem afterRemove_vehicle :
    ((afterRemove h r a b pre suf).core.route r).vehicle = (h.core.route r).vehicle := by
  simp [afterRemove, Heap.setRoute]
theorem afterRemove_route_ne {r' : Nat} (hr : r' ≠ r) :
    (afterRemove h r a b pre suf).core.route r' = h.core.route r' := by
  simp [afterRemove, Heap.setRoute, Heap.setStop, hr]
theorem afterRemove_stop (x : Nat) : (afterRemove h r a b pre suf).core.stop x =
    if x = b then { h.core.stop b with previous := some a } else h.core.stop x := by
  simp [afterRemove, Heap.setRoute, Heap.setStop, Function.update]
@[simp] theorem afterRemove_pt : (afterRemove h r a b pre suf).core.pt = h.core.pt := by
  simp [afterRemove, Heap.setRoute, Heap.setStop]
@[simp] theorem afterRemove_nStop : (afterRemove h r a b pre suf).core.nStop = h.core.nStop := by
  simp [afterRemove, Heap.setRoute, Heap.setStop]
@[simp] theorem afterRemove_nPt : (afterRemove h r a b pre suf).core.nPt = h.core.nPt := by
  simp [afterRemove, Heap.setRoute, Heap.setStop]
@[simp] theorem afterRemove_nRoute : (afterRemove h r a b pre suf).core.nRoute = h.core.nRoute := by
  simp [afterRemove, Heap.setRoute, Heap.setStop]

theorem afterRemove_visit (x : Nat) : visitOf (afterRemove h r a b pre suf).core x = visitOf h.core x := by
  unfold visitOf
  rw [afterRemove_stop]
  by_cases hx : x = b <;> simp [hx]

theorem afterRemove_vehicleOf (x : Nat) :
    ((afterRemove h r a b pre suf).core.stop x).vehicle = (h.core.stop x).vehicle := by
  rw [afterRemove_stop]; by_cases hx : x = b <;> simp [hx]

theorem afterRemove_same {x : Nat} (hx : x ∉ b :: suf) : SameStop h (afterRemove h r a b pre suf) x := by
  refine ⟨⟨afterRemove_visit x, afterRemove_vehicleOf x⟩, ?_, ?_, ?_, ?_⟩
  · rw [afterRemove_stop, if_neg]
    rintro rfl; exact hx (by simp)
  · unfold afterRemove; rw [flushStops_arr, if_neg hx]; rfl
  · unfold afterRemove; rw [flushStops_dep, if_neg hx]; rfl
  · unfold afterRemove; rw [flushStops_cap, if_neg hx]; rfl

/-- Removing an interior stop of a chained route. -/
theorem afterRemove_ok {x : Nat} (hc : Chained h.core r) (ha : CachesAgree E h r)
    (e : (h.core.route r).stops = pre ++ a :: x :: b :: suf) :
    Chained (afterRemove h r a b pre suf).core r ∧ CachesAgree E (afterRemove h r a b pre suf) r := by
  have hn := hc.nodup
  have e1 : (h.core.route r).stops = (pre ++ [a]) ++ x :: b :: suf := by simp [e]
  rw [e1] at hn
  have hl := hc.linked
  rw [e1, linked_append] at hl
  refine splice_ok (pre := pre ++ [a]) (suf' := b :: suf) hc ha e1 (by simp) afterRemove_vehicle (by simp) ?_ ?_ ?_ ?_ ?_ ?_
  · rw [List.nodup_append] at hn ⊢
    refine ⟨hn.1, (List.nodup_cons.1 hn.2.1).2, ?_⟩
    intro y hy z hz
    exact hn.2.2 y hy z (List.mem_cons_of_mem _ hz)
  · intro y hy
    apply afterRemove_same
    intro hm
    exact (List.disjoint_of_nodup_append hn) hy (List.mem_cons_of_mem _ hm)
  · refine ⟨?_, ?_⟩
    · rw [afterRemove_stop, if_pos rfl]; simp
    · refine hl.2.2.2.congr fun y hy => ?_
      rw [afterRemove_stop, if_neg]
      rintro rfl
      have := (List.nodup_cons.1 hn.of_append_right).2
      exact (List.nodup_cons.1 this).1 hy
  · intro y hy
    rw [afterRemove_nStop]
    exact hc.alloc y (by rw [e1]; exact List.mem_append_right _ (List.mem_cons_of_mem _ hy))
  · intro y hy
    rw [afterRemove_vehicleOf]
    exact hc.vehicle y (by rw [e1]; exact List.mem_append_right _ (List.mem_cons_of_mem _ hy))
  · intro y hy; exact flushStops_blank hy

end

/-! ## The assertions of `append_planned_trip` and `remove_trip` -/

theorem timesCheck_reads (hE : EnvOK E) {c : Core} {r : Nat} (hc : Chained c r) (pre suf : List Nat)
    (e : (c.route r).stops = pre ++ suf) : Reads E c (c.route r).stops (timesCheck E suf) true := by
  induction suf generalizing pre with
  | nil => exact Reads.pure _
  | cons s1 suf ih =>
    cases suf with
    | nil => exact Reads.pure _
    | cons s2 suf =>
      have e2 : (c.route r).stops = (pre ++ [s1]) ++ s2 :: suf := by simp [e]
      refine (hc.departure_reads e).bind ((hc.arrival_reads e2).bind ?_)
      have hle : (tmRev E c s1 pre.reverse).dep ≤ (tmRev E c s2 (pre ++ [s1]).reverse).arr := by
        have := hE.metric (c.stop s1).position (visitOf c s2).pos
        simp only [List.reverse_append, List.reverse_cons, List.reverse_nil, List.nil_append, List.cons_append,
          tmRev, serve]
        linarith
      rw [if_pos hle]
      exact ih (pre ++ [s1]) e2

end Jinete
