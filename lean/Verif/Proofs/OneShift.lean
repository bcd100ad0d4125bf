import Verif.Proofs.LocalStep
import Verif.Proofs.Silent
import Verif.Props.Value

/-!
# One-shift: flips of adjacent stops
-/

set_option autoImplicit false

namespace Jinete

variable {E : Env}

/-- The attributes after exchanging the adjacent stops `a` and `b` of route `r`, which are followed by `suf`. -/
def flipCore (c : Core) (r : Nat) (pre : List Nat) (a b : Nat) (suf : List Nat) : Core :=
  { c with
    stop := fun s =>
      if s = a then { c.stop a with previous := some b }
      else if s = b then { c.stop b with previous := (c.stop a).previous }
      else if suf.head? = some s then { c.stop s with previous := some a }
      else c.stop s
    route := Function.update c.route r { c.route r with stops := pre ++ b :: a :: suf } }

theorem swap_set {pre suf : List Nat} {a b : Nat} :
    ((pre ++ a :: b :: suf).set (pre.length + 1) a).set pre.length b = pre ++ b :: a :: suf := by
  induction pre with
  | nil => rfl
  | cons x pre ih => simp

theorem idxOf_pair {pre suf : List Nat} {a b : Nat} (hn : (pre ++ a :: b :: suf).Nodup) :
    (pre ++ a :: b :: suf).idxOf b = pre.length + 1 ∧ (pre ++ a :: b :: suf).idxOf a = pre.length := by
  have h1 : a ∉ pre := by
    intro h0
    have := List.disjoint_of_nodup_append hn
    exact this h0 (by simp)
  have h2 : b ∉ pre := by
    intro h0
    have := List.disjoint_of_nodup_append hn
    exact this h0 (by simp)
  have h3 : a ≠ b := by
    rintro rfl
    have := (List.nodup_append.1 hn).2.1
    simp at this
  constructor
  · rw [List.idxOf_append_of_notMem h2, List.idxOf_cons_ne _ h3, List.idxOf_cons_self]
  · rw [List.idxOf_append_of_notMem h1, List.idxOf_cons_self, Nat.add_zero]

theorem drop_pair {pre suf : List Nat} {a b : Nat} : (pre ++ b :: a :: suf).drop (pre.length + 1) = a :: suf := by
  induction pre with
  | nil => rfl
  | cons x pre ih => simp

theorem flipStops_run {h : Heap} {r a b : Nat} {pre suf : List Nat} (e : (h.core.route r).stops = pre ++ a :: b :: suf)
    (hc : Chained h.core r) :
    flipStops r a b suf.head? h =
      (.ok (), flushStops { h with core := flipCore h.core r pre a b suf } (a :: suf)) := by
  have hn := hc.nodup
  rw [e] at hn
  have hab : a ≠ b := by
    rintro rfl
    have := (List.nodup_append.1 hn).2.1
    simp at this
  have hb : (h.core.stop b).previous = some a := by
    have := hc.linked (pre ++ [a]) b suf (by rw [e]; simp)
    simpa using this
  have hf : ∀ f ∈ suf.head?, (h.core.stop f).previous = some b ∧ f ≠ a ∧ f ≠ b := by
    intro f hf
    cases suf with
    | nil => cases hf
    | cons g suf =>
      simp only [List.head?_cons, Option.mem_def, Option.some.injEq] at hf
      subst hf
      refine ⟨?_, ?_, ?_⟩
      · have := hc.linked (pre ++ [a, b]) g suf (by rw [e]; simp)
        simpa using this
      · rintro rfl
        have := (List.nodup_append.1 hn).2.1
        simp at this
      · rintro rfl
        have := (List.nodup_append.1 hn).2.1
        simp at this
  obtain ⟨i1, i2⟩ := idxOf_pair hn
  have m1 : b ∈ (h.core.route r).stops := by rw [e]; simp
  have m2 : a ∈ (h.core.route r).stops := by rw [e]; simp
  have e1 : Py.assert (suf.head?.all fun f => decide ((h.core.stop f).previous = some b)) h = (.ok (), h) := by
    have : (suf.head?.all fun f => decide ((h.core.stop f).previous = some b)) = true := by
      cases ho : suf.head? with
      | none => rfl
      | some f => simp [(hf f (by rw [ho]; rfl)).1]
    rw [this]; rfl
  have e2 : Py.assert (decide ((h.core.stop b).previous = some a)) h = (.ok (), h) := by rw [decide_eq_true hb]; rfl
  have e3 : indexOf (h.core.route r).stops b h = (.ok (pre.length + 1), h) := by
    unfold indexOf; rw [if_pos m1, e, i1]; rfl
  have e4 : indexOf (h.core.route r).stops a h = (.ok pre.length, h) := by
    unfold indexOf; rw [if_pos m2, e, i2]; rfl
  unfold flipStops
  rw [Py.read_bind, Py.bind_ok e1, Py.bind_ok e2, Py.bind_ok e3, Py.bind_ok e4, Py.modify_bind]
  have key : ∀ h1 : Heap, h1.core = { h.core with
        stop := fun s => if suf.head? = some s then { h.core.stop s with previous := some a } else h.core.stop s,
        route := Function.update h.core.route r { h.core.route r with stops := pre ++ b :: a :: suf } } →
      h1.arr = h.arr → h1.dep = h.dep → h1.cap = h.cap → h1.sfeas = h.sfeas → h1.pfeas = h.pfeas → h1.rfeas = h.rfeas →
      (do
        Py.modify fun h => h.setStop b { h.core.stop b with previous := (h.core.stop a).previous }
        Py.modify fun h => h.setStop a { h.core.stop a with previous := some b }
        Py.modify fun h => flushStops h ((h.core.route r).stops.drop (pre.length + 1)) : M Unit) h1 =
      (.ok (), flushStops { h with core := flipCore h.core r pre a b suf } (a :: suf)) := by
    rintro ⟨c1, a1, d1, k1, s1, p1, r1⟩ rfl rfl rfl rfl rfl rfl rfl
    rw [Py.modify_bind, Py.modify_bind]
    have ha : suf.head? ≠ some a := fun h0 => (hf a h0).2.1 rfl
    have hbn : suf.head? ≠ some b := fun h0 => (hf b h0).2.2 rfl
    simp only [Py.modify, Heap.setStop, Function.update_self, Function.update_of_ne hab, if_neg ha, if_neg hbn, drop_pair]
    congr 2
    unfold flipCore
    congr 2
    funext s
    by_cases h1 : s = a
    · subst h1; simp
    · by_cases h2 : s = b
      · subst h2; simp [h1]
      · simp [h1, h2]
  have hroute : ((h.core.route r).stops.set (pre.length + 1) a).set pre.length b = pre ++ b :: a :: suf := by
    rw [e]; exact swap_set
  cases ho : suf.head? with
  | none =>
    have e5 : ∀ h1 : Heap, ifSome none (fun f => Py.modify fun h => h.setStop f { h.core.stop f with previous := some a }) h1 =
        (.ok (), h1) := fun _ => rfl
    rw [Py.bind_ok (e5 _)]
    refine key _ ?_ rfl rfl rfl rfl rfl rfl
    simp [Heap.setRoute, hroute, ho]
  | some f =>
    have e5 : ∀ h1 : Heap, ifSome (some f) (fun f => Py.modify fun h => h.setStop f { h.core.stop f with previous := some a }) h1 =
        (.ok (), h1.setStop f { h1.core.stop f with previous := some a }) := fun _ => rfl
    rw [Py.bind_ok (e5 _)]
    refine key _ ?_ rfl rfl rfl rfl rfl rfl
    simp only [Heap.setRoute, Heap.setStop, hroute, ho, Option.some.injEq]
    congr 1
    funext s
    by_cases h1 : s = f
    · subst h1; simp
    · rw [Function.update_of_ne h1, if_neg (fun h0 => h1 h0.symm)]


/-! ## What a flip keeps -/

section
variable {c : Core} {r a b : Nat} {pre suf : List Nat}

theorem flipCore_stops : ((flipCore c r pre a b suf).route r).stops = pre ++ b :: a :: suf := by
  simp [flipCore]

theorem flipCore_vehicle : ((flipCore c r pre a b suf).route r).vehicle = (c.route r).vehicle := by
  simp [flipCore]

theorem flipCore_route {q : Nat} (hq : q ≠ r) : (flipCore c r pre a b suf).route q = c.route q := by
  simp [flipCore, Function.update_of_ne hq]

/-- All attributes of a stop but its predecessor. -/
theorem flipCore_stop (s : Nat) : (flipCore c r pre a b suf).stop s = { c.stop s with
    previous := ((flipCore c r pre a b suf).stop s).previous } := by
  unfold flipCore
  by_cases h1 : s = a
  · subst h1; simp
  · by_cases h2 : s = b
    · subst h2; simp [h1]
    · by_cases h3 : suf.head? = some s
      · simp [h1, h2, h3]
      · simp [h1, h2, h3]

theorem flipCore_pickups (s : Nat) : ((flipCore c r pre a b suf).stop s).pickups = (c.stop s).pickups := by
  rw [flipCore_stop]

theorem flipCore_deliveries (s : Nat) : ((flipCore c r pre a b suf).stop s).deliveries = (c.stop s).deliveries := by
  rw [flipCore_stop]

theorem flipCore_other {s : Nat} (h : s ∉ a :: b :: suf) : (flipCore c r pre a b suf).stop s = c.stop s := by
  simp only [List.mem_cons, not_or] at h
  unfold flipCore
  simp only [if_neg h.1, if_neg h.2.1]
  rw [if_neg]
  intro h0
  cases suf with
  | nil => cases h0
  | cons f suf => exact h.2.2 (by cases h0; simp)

theorem flipCore_visit (s : Nat) : visitOf (flipCore c r pre a b suf) s = visitOf c s := by
  unfold visitOf
  rw [flipCore_stop]
  rfl

theorem flipCore_itinerary : itinerary (flipCore c r pre a b suf) r = (pre ++ b :: a :: suf).map (visitOf c) := by
  unfold itinerary
  rw [flipCore_stops]
  exact List.map_congr_left fun s _ => flipCore_visit s

/-- Flipping back restores every attribute. -/
theorem flipCore_back (hc : Chained c r) (e : (c.route r).stops = pre ++ a :: b :: suf) :
    flipCore (flipCore c r pre a b suf) r pre b a suf = c := by
  have hn := hc.nodup
  rw [e] at hn
  have hn2 := (List.nodup_append.1 hn).2.1
  have hab : a ≠ b := by rintro rfl; simp at hn2
  have hb : (c.stop b).previous = some a := by simpa using hc.linked (pre ++ [a]) b suf (by rw [e]; simp)
  have hf : ∀ f, suf.head? = some f → (c.stop f).previous = some b ∧ f ≠ a ∧ f ≠ b := by
    intro f hf
    cases suf with
    | nil => cases hf
    | cons g suf =>
      cases hf
      refine ⟨?_, ?_, ?_⟩
      · simpa using hc.linked (pre ++ [a, b]) f suf (by rw [e]; simp)
      · rintro rfl; simp at hn2
      · rintro rfl; simp at hn2
  have hroute : (flipCore (flipCore c r pre a b suf) r pre b a suf).route = c.route := by
    funext q
    by_cases hq : q = r
    · subst hq
      simp only [flipCore, Function.update_self, ← e]
    · rw [flipCore_route hq, flipCore_route hq]
  have hstop : (flipCore (flipCore c r pre a b suf) r pre b a suf).stop = c.stop := by
    funext s
    by_cases h1 : s = b
    · subst h1
      simp only [flipCore, if_true, if_neg (Ne.symm hab), ← hb]
    · by_cases h2 : s = a
      · subst h2
        simp only [flipCore, if_true, if_neg (Ne.symm hab), if_neg hab]
      · by_cases h3 : suf.head? = some s
        · simp only [flipCore, if_neg h1, if_neg h2, if_pos h3, ← (hf s h3).1]
        · simp only [flipCore, if_neg h1, if_neg h2, if_neg h3]
  cases c
  simp only [flipCore] at hroute hstop ⊢
  simp only [hroute, hstop]

theorem flip_chained (hc : Chained c r) (e : (c.route r).stops = pre ++ a :: b :: suf) :
    Chained (flipCore c r pre a b suf) r := by
  have hn := hc.nodup
  rw [e] at hn
  have hn2 := (List.nodup_append.1 hn).2.1
  have hd := List.disjoint_of_nodup_append hn
  have hab : a ≠ b := by rintro rfl; simp at hn2
  have hperm : (pre ++ b :: a :: suf).Perm (pre ++ a :: b :: suf) := (List.Perm.swap a b suf).append_left pre
  have ha : (c.stop a).previous = pre.getLast? := hc.linked pre a (b :: suf) e
  constructor
  · rw [flipCore_stops]; exact hperm.nodup_iff.2 hn
  · rw [flipCore_stops]
    intro s hs
    exact hc.alloc s (by rw [e]; exact hperm.subset hs)
  · rw [flipCore_stops, linked_append]
    have hl := hc.linked
    rw [e, linked_append] at hl
    refine ⟨hl.1.congr fun s hs => ?_, ?_, ?_, ?_⟩
    · rw [flipCore_other]
      intro h0
      exact hd hs h0
    · simp only [flipCore, if_neg (Ne.symm hab), if_true, ha]
    · simp only [flipCore, if_true]
    · have h3 := hl.2.2.2
      cases suf with
      | nil => trivial
      | cons f suf =>
        have hfa : f ≠ a := by rintro rfl; simp at hn2
        have hfb : f ≠ b := by rintro rfl; simp at hn2
        refine ⟨by simp [flipCore, hfa, hfb], h3.2.congr fun s hs => ?_⟩
        have h1 : s ≠ a := by rintro rfl; simp at hn2; exact hn2.1.2.2 hs
        have h2 : s ≠ b := by rintro rfl; simp at hn2; exact hn2.2.1.2 hs
        have h4 : f ≠ s := by rintro rfl; simp at hn2; exact hn2.2.2.1 hs
        simp [flipCore, h1, h2, h4]
  · rw [flipCore_stops, flipCore_vehicle]
    intro s hs
    rw [flipCore_stop]
    exact hc.vehicle s (by rw [e]; exact hperm.subset hs)

/-- Order of two stops after the exchange of two adjacent ones. -/
theorem before_flip {x y : Nat} (hn : (pre ++ a :: b :: suf).Nodup) (h : [x, y].Sublist (pre ++ a :: b :: suf))
    (hne : ¬ (x = a ∧ y = b)) : [x, y].Sublist (pre ++ b :: a :: suf) := by
  rw [List.sublist_append_iff] at h
  obtain ⟨l1, l2, e, h1, h2⟩ := h
  have hn2 := (List.nodup_append.1 hn).2.1
  have mem2 : ∀ z, z ∈ a :: b :: suf → z ∈ b :: a :: suf := fun z hz => by simp at hz ⊢; tauto
  match l1, e with
  | [], e =>
    simp only [List.nil_append] at e
    subst e
    refine List.Sublist.trans ?_ (List.sublist_append_right pre _)
    rcases List.cons_sublist_cons'.1 h2 with h3 | ⟨rfl, h3⟩
    · rcases List.cons_sublist_cons'.1 h3 with h4 | ⟨rfl, h4⟩
      · exact (h4.trans (List.sublist_cons_self _ _)).trans (List.sublist_cons_self _ _)
      · exact List.Sublist.cons_cons _ (h4.trans (List.sublist_cons_self _ _))
    · rw [List.singleton_sublist] at h3
      have : y ∈ suf := by
        rcases List.mem_cons.1 h3 with rfl | h4
        · exact absurd ⟨rfl, rfl⟩ hne
        · exact h4
      exact (List.Sublist.cons_cons _ (List.singleton_sublist.2 this)).trans (List.sublist_cons_self _ _)
  | [z], e =>
    simp only [List.cons_append, List.nil_append, List.cons.injEq] at e
    obtain ⟨rfl, rfl⟩ := e
    rw [show [x, y] = [x] ++ [y] from rfl]
    refine h1.append ?_
    rw [List.singleton_sublist] at h2 ⊢
    exact mem2 y h2
  | [z, w], e =>
    simp only [List.cons_append, List.nil_append, List.cons.injEq] at e
    obtain ⟨rfl, rfl, rfl⟩ := e
    exact h1.trans (List.sublist_append_left _ _)
  | z :: w :: v :: l, e =>
    simp at e

/-- A flip keeps the route well formed unless the second stop delivers what the first picks up. -/
theorem flip_wf (hw : WellFormed c r) (e : (c.route r).stops = pre ++ a :: b :: suf) (hp : pre ≠ [])
    (hb : ∀ p ∈ (c.stop a).pickups, p ∉ (c.stop b).deliveries) : WellFormed (flipCore c r pre a b suf) r := by
  have hn := hw.nodup
  rw [e] at hn
  have hperm : (pre ++ b :: a :: suf).Perm (pre ++ a :: b :: suf) := (List.Perm.swap a b suf).append_left pre
  have hin : ∀ s, s ∈ pre ++ b :: a :: suf → s ∈ (c.route r).stops := fun s hs => by rw [e]; exact hperm.subset hs
  refine WellFormed.of_order (flip_chained hw.toChained e) hw.exists_ ?_ ?_ ?_ ?_ ?_ ?_
  · rw [flipCore_stops, hperm.length_eq, ← e]; exact hw.length
  · rw [flipCore_stops]
    intro s hs
    rw [flipCore_stop]
    refine hw.depot s ?_
    rw [e]
    cases pre with
    | nil => exact absurd rfl hp
    | cons x pre => exact hs
  · rw [flipCore_stops]
    intro s hs p h0
    rw [flipCore_pickups] at h0
    obtain ⟨h1, h2, d, hd, h3, h4⟩ := hw.pick' (hin s hs) h0
    refine ⟨h1, h2, d, ?_, h3, by rw [flipCore_deliveries]; exact h4⟩
    rw [e] at hd
    refine before_flip hn hd ?_
    rintro ⟨rfl, rfl⟩
    exact hb p h0 h4
  · rw [flipCore_stops]
    intro s hs p h0
    rw [flipCore_deliveries] at h0
    obtain ⟨h1, h2, u, hu, h3, h4⟩ := hw.drop' (hin s hs) h0
    refine ⟨h1, h2, u, ?_, h3, by rw [flipCore_pickups]; exact h4⟩
    rw [e] at hu
    refine before_flip hn hu ?_
    rintro ⟨rfl, rfl⟩
    exact hb p h4 h0
  · rw [flipCore_stops]
    intro s hs
    rw [flipCore_stop]
    exact hw.sets s (hin s hs)
  · rw [flipCore_itinerary]
    have := hw.trips
    rw [itinerary, e] at this
    exact ((hperm.map _).flatMap_right _).nodup_iff.2 this

end

/-! ## One flip -/

/-- What flips of route `r` may do to the attributes. -/
structure Flips (r : Nat) (c c' : Core) : Prop where
  vehicle : (c'.route r).vehicle = (c.route r).vehicle
  stops : (c'.route r).stops.Perm (c.route r).stops
  route : ∀ q, q ≠ r → c'.route q = c.route q
  other : ∀ s, s ∉ (c.route r).stops → c'.stop s = c.stop s
  attr : ∀ s, c'.stop s = { c.stop s with previous := (c'.stop s).previous }
  pt : c'.pt = c.pt
  nStop : c'.nStop = c.nStop
  nPt : c'.nPt = c.nPt
  nRoute : c'.nRoute = c.nRoute

theorem Flips.refl (r : Nat) (c : Core) : Flips r c c :=
  ⟨rfl, List.Perm.refl _, fun _ _ => rfl, fun _ _ => rfl, fun _ => rfl, rfl, rfl, rfl, rfl⟩

theorem Flips.trans {r : Nat} {c1 c2 c3 : Core} (a : Flips r c1 c2) (b : Flips r c2 c3) : Flips r c1 c3 where
  vehicle := b.vehicle.trans a.vehicle
  stops := b.stops.trans a.stops
  route := fun q hq => (b.route q hq).trans (a.route q hq)
  other := fun s hs => (b.other s fun h => hs (a.stops.subset h)).trans (a.other s hs)
  attr := fun s => by rw [b.attr s, a.attr s]
  pt := b.pt.trans a.pt
  nStop := b.nStop.trans a.nStop
  nPt := b.nPt.trans a.nPt
  nRoute := b.nRoute.trans a.nRoute

theorem Flips.visit {r : Nat} {c c' : Core} (a : Flips r c c') (s : Nat) : visitOf c' s = visitOf c s := by
  unfold visitOf
  rw [a.attr s, a.pt]

theorem Flips.itinerary {r : Nat} {c c' : Core} (a : Flips r c c') : (itinerary c' r).Perm (itinerary c r) := by
  unfold Jinete.itinerary
  rw [List.map_congr_left fun s _ => a.visit s]
  exact a.stops.map _

theorem flip_shifted {c : Core} {r a b : Nat} {pre suf : List Nat} (e : (c.route r).stops = pre ++ a :: b :: suf) :
    Flips r c (flipCore c r pre a b suf) where
  vehicle := flipCore_vehicle
  stops := by rw [flipCore_stops, e]; exact (List.Perm.swap a b suf).append_left pre
  route := fun _ hq => flipCore_route hq
  other := fun s hs => flipCore_other fun h0 => hs (by rw [e]; exact List.mem_append_right _ h0)
  attr := flipCore_stop
  pt := rfl
  nStop := rfl
  nPt := rfl
  nRoute := rfl

theorem Py.ok_of_bind {σ α β : Type} {x : Py σ α} {f : α → Py σ β} {s s' : σ} {b : β} (h : (x >>= f) s = (.ok b, s')) :
    ∃ a s1, x s = (.ok a, s1) ∧ f a s1 = (.ok b, s') := by
  rw [Py.bind_run] at h
  cases e : x s with
  | mk y s1 =>
    rw [e] at h
    cases y with
    | ok a => exact ⟨a, s1, rfl, h⟩
    | error e => cases h

/-- The Dial-a-Ride value of a well formed route is read from attributes only. -/
theorem dialARide_value {h : Heap} {r : Nat} (hw : WellFormed h.core r) :
    Objective.value E .dialARide (.route r) h =
      (.ok (routeValue E (E.vehicle (h.core.route r).vehicle) (itinerary h.core r) .dialARide), h) := by
  show ((.ok [((routeTrips h.core r).length : ℚ), - routeDistance E h.core r] : Except Err (List ℚ)), h) = _
  simp only [routeValue, picks_eq, hw.distance_eq]

theorem split_pair {l : List Nat} {i : Nat} (hi : i + 1 < l.length) :
    ∃ pre a b suf, l = pre ++ a :: b :: suf ∧ pre.length = i ∧ l[i]? = some a ∧ l[i + 1]? = some b ∧ l[i + 2]? = suf.head? := by
  refine ⟨l.take i, l[i], l[i + 1], l.drop (i + 2), ?_, ?_, ?_, ?_, ?_⟩
  · rw [← List.drop_eq_getElem_cons, ← List.drop_eq_getElem_cons, List.take_append_drop]
  · rw [List.length_take]; omega
  · exact List.getElem?_eq_getElem _
  · exact List.getElem?_eq_getElem _
  · rw [List.head?_drop]

/-- The outcome of one step of the loop that returns. -/
structure OneShiftStep (E : Env) (k : Objective) (r : Nat) (h : Heap) (cost cost' : List ℚ) (h' : Heap) : Prop where
  wf : WellFormed h'.core r
  shifted : Flips r h.core h'.core
  verdict : ∀ q b, h.rfeas q = some b → h'.rfeas q = some b
  outcome : (h'.core = h.core ∧ cost' = cost) ∨
    (h'.rfeas r = some true ∧ (k = .dialARide → cost < cost' ∧
      cost' = routeValue E (E.vehicle (h'.core.route r).vehicle) (itinerary h'.core r) k))

theorem oneShiftAt_step {k : Objective} {h h' : Heap} {r i : Nat} {cost cost' : List ℚ} (hw : WellFormed h.core r) (h1 : 1 ≤ i)
    (hi : i + 1 < (h.core.route r).stops.length) (e : oneShiftAt E k r i cost h = (.ok cost', h')) :
    OneShiftStep E k r h cost cost' h' := by
  obtain ⟨pre, a, b, suf, es, hpre, ea, eb, ec⟩ := split_pair hi
  have hpn : pre ≠ [] := by rintro rfl; simp at hpre; omega
  have k1 : routeStops r h = (.ok (h.core.route r).stops, h) := rfl
  have k2 : (Py.index (h.core.route r).stops i : M Nat) h = (.ok a, h) := by unfold Py.index; rw [ea]; rfl
  have k3 : (Py.index (h.core.route r).stops (i + 1) : M Nat) h = (.ok b, h) := by unfold Py.index; rw [eb]; rfl
  unfold oneShiftAt at e
  rw [Py.bind_ok k1, Py.bind_ok k2, Py.bind_ok k3, Py.read_bind] at e
  by_cases hb : ((h.core.stop a).pickups.any fun p => (h.core.stop b).deliveries.contains p) = true
  · rw [if_pos hb] at e
    cases e
    exact ⟨hw, Flips.refl _ _, fun _ _ h0 => h0, .inl ⟨rfl, rfl⟩⟩
  · rw [if_neg hb, ec, Py.bind_ok (flipStops_run es hw.toChained)] at e
    have hb' : ∀ p ∈ (h.core.stop a).pickups, p ∉ (h.core.stop b).deliveries := by
      intro p hp hq
      exact hb (List.any_eq_true.2 ⟨p, hp, by simpa using hq⟩)
    have hwf := flip_wf hw es hpn hb'
    generalize hg : flushStops { h with core := flipCore h.core r pre a b suf } (a :: suf) = g at e
    have gc : g.core = flipCore h.core r pre a b suf := by rw [← hg, flushStops_core]
    have gr : g.rfeas = h.rfeas := by rw [← hg, flushStops_rfeas]
    obtain ⟨rejected, g1, e1, e2⟩ := Py.ok_of_bind e
    have s1 := (Silent.oneShiftRejects E k r cost).ok e1
    have c1 : g1.core = flipCore h.core r pre a b suf := s1.core.trans gc
    have v1 : ∀ q b, h.rfeas q = some b → g1.rfeas q = some b := fun q b h0 => s1.routeVerdict q b (by rw [gr]; exact h0)
    cases rejected with
    | true =>
      rw [if_pos rfl] at e2
      have es' : (g1.core.route r).stops = pre ++ b :: a :: suf := by rw [c1, flipCore_stops]
      rw [Py.bind_ok (flipStops_run es' (by rw [c1]; exact hwf.toChained))] at e2
      cases e2
      have hcore : (flushStops { g1 with core := flipCore g1.core r pre b a suf } (b :: suf)).core = h.core := by
        rw [flushStops_core]
        show flipCore g1.core r pre b a suf = h.core
        rw [c1]
        exact flipCore_back hw.toChained es
      refine ⟨by rw [hcore]; exact hw, by rw [hcore]; exact Flips.refl _ _, ?_, .inl ⟨hcore, rfl⟩⟩
      rw [flushStops_rfeas]
      exact v1
    | false =>
      rw [if_neg (by simp)] at e2
      have s2 := (Silent.objective E k (.route r)).ok e2
      have c2 : h'.core = flipCore h.core r pre a b suf := s2.core.trans c1
      have hv : g1.rfeas r = some true ∧ (k = .dialARide → cost < routeValue E (E.vehicle (g.core.route r).vehicle) (itinerary g.core r) k) := by
        unfold oneShiftRejects at e1
        obtain ⟨ok, g2, e3, e4⟩ := Py.ok_of_bind e1
        have m2 : g2.rfeas r = some ok := by
          unfold routeFeasible at e3
          rw [Py.read_bind] at e3
          cases hr : g.rfeas r with
          | some x => rw [hr] at e3; cases e3; exact hr
          | none =>
            rw [hr] at e3
            obtain ⟨x, g3, e5, e6⟩ := Py.ok_of_bind e3
            cases e6
            simp
        cases ok with
        | false => cases e4
        | true =>
          rw [if_pos rfl] at e4
          obtain ⟨x, g3, e5, e6⟩ := Py.ok_of_bind e4
          have s3 := (Silent.best E k _).ok e5
          rw [Py.pure_run] at e6
          injection e6 with e6 e7
          injection e6 with e6
          subst e7
          refine ⟨s3.routeVerdict r true m2, ?_⟩
          rintro rfl
          have c3 := ((Silent.routeFeasible E r).ok e3).core
          have hw2 : WellFormed g2.core r := by rw [c3, gc]; exact hwf
          have hv := dialARide_value (E := E) hw2
          rw [c3] at hv
          have e8 : Objective.best E .dialARide [some (.tuple cost), some (.route r)] g2 = (.ok (pickMax [(Optimizable.tuple cost, cost),
              (.route r, routeValue E (E.vehicle (g.core.route r).vehicle) (itinerary g.core r) .dialARide)]), g2) := by
            have hl : [((routeTrips g2.core r).length : ℚ), - routeDistance E g2.core r] =
                routeValue E (E.vehicle (g.core.route r).vehicle) (itinerary g.core r) .dialARide :=
              Except.ok.inj (congrArg Prod.fst hv)
            rw [← hl]
            rfl
          rw [e8] at e5
          cases e5
          by_contra hlt
          simp only [pickMax, List.foldl_cons, List.foldl_nil, if_neg hlt, decide_true] at e6
          cases e6
      refine ⟨by rw [c2]; exact hwf, by rw [c2]; exact flip_shifted es, fun q b h0 => s2.routeVerdict q b (v1 q b h0),
        .inr ⟨s2.routeVerdict r true hv.1, ?_⟩⟩
      rintro rfl
      rw [dialARide_value (by rw [c1]; exact hwf)] at e2
      have := hv.2 rfl
      rw [gc, ← c1] at this
      cases e2
      exact ⟨this, rfl⟩

/-! ## The loops -/

/-- The outcome of the loop over the indices of one route. -/
structure OneShiftPass (E : Env) (k : Objective) (r : Nat) (h : Heap) (cost : List ℚ) (h' : Heap) : Prop where
  wf : WellFormed h'.core r
  flips : Flips r h.core h'.core
  verdict : ∀ q b, h.rfeas q = some b → h'.rfeas q = some b
  outcome : h'.core = h.core ∨
    (h'.rfeas r = some true ∧ (k = .dialARide →
      cost < routeValue E (E.vehicle (h'.core.route r).vehicle) (itinerary h'.core r) k))

theorem oneShiftLoop_pass {k : Objective} {r : Nat} :
    ∀ (l : List Nat) {h h' : Heap} {cost : List ℚ} {u : Unit}, WellFormed h.core r →
      (∀ i ∈ l, 1 ≤ i ∧ i + 1 < (h.core.route r).stops.length) → oneShiftLoop E k r l cost h = (.ok u, h') →
      OneShiftPass E k r h cost h' := by
  intro l
  induction l with
  | nil =>
    intro h h' cost u hw _ e
    cases e
    exact ⟨hw, Flips.refl _ _, fun _ _ h0 => h0, .inl rfl⟩
  | cons i l ih =>
    intro h h' cost u hw hi e
    obtain ⟨cost1, h1, e1, e2⟩ := Py.ok_of_bind e
    have a := oneShiftAt_step hw (hi i (by simp)).1 (hi i (by simp)).2 e1
    have b := ih a.wf (fun j hj => by rw [a.shifted.stops.length_eq]; exact hi j (by simp [hj])) e2
    refine ⟨b.wf, a.shifted.trans b.flips, fun q x h0 => b.verdict q x (a.verdict q x h0), ?_⟩
    rcases a.outcome with ⟨c1, rfl⟩ | ⟨v1, d1⟩
    · rw [← c1]; exact b.outcome
    · right
      rcases b.outcome with c2 | ⟨v2, d2⟩
      · refine ⟨b.verdict _ _ v1, fun hk => ?_⟩
        obtain ⟨x, y⟩ := d1 hk
        rw [c2, ← y]; exact x
      · exact ⟨v2, fun hk => lt_trans (d1 hk).1 (d2 hk)⟩

theorem oneShiftRoute_pass {k : Objective} {r : Nat} {h h' : Heap} {u : Unit} (hw : WellFormed h.core r)
    (e : oneShiftRoute E k r h = (.ok u, h')) :
    ∃ cost, OneShiftPass E k r h cost h' ∧
      (k = .dialARide → cost = routeValue E (E.vehicle (h.core.route r).vehicle) (itinerary h.core r) k) := by
  obtain ⟨cost, h1, e1, e2⟩ := Py.ok_of_bind e
  have s1 := (Silent.objective E k (.route r)).ok e1
  have k1 : routeStops r h1 = (.ok (h1.core.route r).stops, h1) := rfl
  rw [Py.bind_ok k1] at e2
  have b := oneShiftLoop_pass (E := E) (k := k) _ (by rw [s1.core]; exact hw) (by
    intro i hi
    obtain ⟨j, hj, rfl⟩ := List.mem_map.1 hi
    rw [List.mem_range] at hj
    omega) e2
  refine ⟨cost, ⟨b.wf, by rw [← s1.core]; exact b.flips, fun q x h0 => b.verdict q x (s1.routeVerdict _ _ h0),
    by rw [← s1.core]; exact b.outcome⟩, ?_⟩
  rintro rfl
  rw [dialARide_value hw] at e1
  cases e1
  rfl

/-- Routes of different vehicles have no stop in common. -/
theorem stops_apart {c : Core} {q r : Nat} (hq : Chained c q) (hr : Chained c r) (hv : (c.route q).vehicle ≠ (c.route r).vehicle) :
    ∀ s ∈ (c.route q).stops, s ∉ (c.route r).stops := by
  intro s h1 h2
  exact hv ((hq.vehicle s h1).symm.trans (hr.vehicle s h2))

theorem Flips.same {r : Nat} {c c' : Core} (f : Flips r c c') {R : Nat → Prop}
    (hR : ∀ q, R q → q ≠ r ∧ ∀ s ∈ (c.route q).stops, s ∉ (c.route r).stops) : SameCore R c c' where
  nStop := le_of_eq f.nStop.symm
  nPt := le_of_eq f.nPt.symm
  nRoute := le_of_eq f.nRoute.symm
  route := fun q hq => f.route q (hR q hq).1
  stop := fun q hq s hs => f.other s ((hR q hq).2 s hs)
  pt := fun _ _ _ _ _ _ => by rw [f.pt]

/-- What one-shift does to one route. -/
structure OneShifted (E : Env) (k : Objective) (c : Core) (r : Nat) (c' : Core) (v : Option Bool) : Prop where
  wf : WellFormed c' r
  vehicle : (c'.route r).vehicle = (c.route r).vehicle
  stops : (c'.route r).stops.Perm (c.route r).stops
  itinerary : (itinerary c' r).Perm (itinerary c r)
  outcome : Jinete.itinerary c' r = Jinete.itinerary c r ∨ (v = some true ∧ (k = .dialARide →
    routeValue E (E.vehicle (c.route r).vehicle) (Jinete.itinerary c r) k <
      routeValue E (E.vehicle (c'.route r).vehicle) (Jinete.itinerary c' r) k))

theorem oneShift_run {k : Objective} :
    ∀ (rs : List Nat) {h h' : Heap} {u : Unit}, (∀ r ∈ rs, WellFormed h.core r) →
      (rs.map fun r => (h.core.route r).vehicle).Nodup → Py.forEach rs (oneShiftRoute E k) h = (.ok u, h') →
      (∀ r ∈ rs, OneShifted E k h.core r h'.core (h'.rfeas r)) ∧
      SameCore (fun q => ∀ r ∈ rs, q ≠ r ∧ ∀ s ∈ (h.core.route q).stops, s ∉ (h.core.route r).stops) h.core h'.core ∧
      ∀ q b, h.rfeas q = some b → h'.rfeas q = some b := by
  intro rs
  induction rs with
  | nil =>
    intro h h' u _ _ e
    cases e
    exact ⟨fun r hr => (by cases hr), SameCore.refl _, fun _ _ h0 => h0⟩
  | cons r l ih =>
    intro h h' u hw hv e
    obtain ⟨u1, h1, e1, e2⟩ := Py.ok_of_bind e
    obtain ⟨cost, a, ha⟩ := oneShiftRoute_pass (hw r (by simp)) e1
    rw [List.map_cons, List.nodup_cons] at hv
    have apart : ∀ q ∈ l, (h.core.route q).vehicle ≠ (h.core.route r).vehicle := fun q hq h0 =>
      hv.1 (List.mem_map.2 ⟨q, hq, h0⟩)
    have s1 : SameCore (· ∈ l) h.core h1.core := a.flips.same fun q hq =>
      ⟨fun h0 => apart q hq (by rw [h0]), stops_apart (hw q (by simp [hq])).toChained (hw r (by simp)).toChained (apart q hq)⟩
    have hveh : (l.map fun q => (h1.core.route q).vehicle) = l.map fun q => (h.core.route q).vehicle :=
      List.map_congr_left fun q hq => by rw [s1.route q hq]
    obtain ⟨h2, s2, v2⟩ := ih (fun q hq => s1.wf hq (hw q (by simp [hq]))) (by rw [hveh]; exact hv.2) e2
    have hr : ∀ q ∈ l, r ≠ q ∧ ∀ s ∈ (h1.core.route r).stops, s ∉ (h1.core.route q).stops := by
      intro q hq
      refine ⟨fun h0 => apart q hq (by rw [h0]), fun s hs => ?_⟩
      rw [s1.route q hq]
      exact fun h0 => stops_apart (hw q (by simp [hq])).toChained (hw r (by simp)).toChained (apart q hq) s h0 (a.flips.stops.subset hs)
    refine ⟨?_, ?_, fun q b h0 => v2 q b (a.verdict q b h0)⟩
    · intro q hq
      rcases List.mem_cons.1 hq with rfl | hq
      · have er : h'.core.route q = h1.core.route q := s2.route q hr
        have ei : Jinete.itinerary h'.core q = Jinete.itinerary h1.core q := s2.itinerary hr
        refine ⟨s2.wf hr a.wf, by rw [er]; exact a.flips.vehicle, by rw [er]; exact a.flips.stops, by rw [ei]; exact a.flips.itinerary, ?_⟩
        rcases a.outcome with c1 | ⟨v1, d1⟩
        · left; rw [ei, c1]
        · refine .inr ⟨v2 _ _ v1, fun hk => ?_⟩
          rw [ei, er, ← ha hk]
          exact d1 hk
      · have b := h2 q hq
        have er := s1.route q hq
        have ei : Jinete.itinerary h1.core q = Jinete.itinerary h.core q := s1.itinerary hq
        exact ⟨b.wf, by rw [← er]; exact b.vehicle, by rw [← er]; exact b.stops, by rw [← ei]; exact b.itinerary,
          by rw [← ei, ← er]; exact b.outcome⟩
    · have s3 : SameCore (fun q => ∀ r' ∈ r :: l, q ≠ r' ∧ ∀ s ∈ (h.core.route q).stops, s ∉ (h.core.route r').stops) h.core h1.core :=
        a.flips.same fun q hq => hq r (by simp)
      refine s3.trans (s2.subset ?_)
      intro q hq r' hr'
      refine ⟨(hq r' (by simp [hr'])).1, ?_⟩
      rw [s3.route q hq, s1.route r' hr']
      exact (hq r' (by simp [hr'])).2

end Jinete
