import Verif.Proofs.Clone

/-!
# Separation: methods applied to one group of objects do not touch another group

`A` and `B` are the stops and planned trips of a protected route `q`. `Apart` says that nothing outside
points into the group; `Kept` that the group is unchanged.
-/

set_option autoImplicit false

namespace Jinete

variable {E : Env} {A B : List Nat} {r q : Nat}

/-- Route `r` and all created stops and planned trips outside the protected group `A`, `B` do not point
into it; pointers outside lead to created stops. -/
structure Apart (A B : List Nat) (r q : Nat) (h : Heap) : Prop where
  ne : r ≠ q
  qAlloc : q < h.core.nRoute
  aAlloc : ∀ s ∈ A, s < h.core.nStop
  bAlloc : ∀ p ∈ B, p < h.core.nPt
  stops : ∀ s ∈ (h.core.route r).stops, s < h.core.nStop ∧ s ∉ A
  previous : ∀ x, x < h.core.nStop → x ∉ A → ∀ p, (h.core.stop x).previous = some p → p < h.core.nStop ∧ p ∉ A
  pickup : ∀ p, p < h.core.nPt → p ∉ B → ∀ s, (h.core.pt p).pickup = some s → s < h.core.nStop ∧ s ∉ A
  delivery : ∀ p, p < h.core.nPt → p ∉ B → ∀ s, (h.core.pt p).delivery = some s → s < h.core.nStop ∧ s ∉ A

/-- The protected group is unchanged. -/
structure Kept (A B : List Nat) (q : Nat) (h h' : Heap) : Prop where
  nStop : h.core.nStop ≤ h'.core.nStop
  nPt : h.core.nPt ≤ h'.core.nPt
  nRoute : h.core.nRoute ≤ h'.core.nRoute
  route : h'.core.route q = h.core.route q
  stop : ∀ x ∈ A, h'.core.stop x = h.core.stop x
  pt : ∀ p ∈ B, h'.core.pt p = h.core.pt p
  arr : ∀ x ∈ A, h'.arr x = h.arr x
  dep : ∀ x ∈ A, h'.dep x = h.dep x
  cap : ∀ x ∈ A, h'.cap x = h.cap x

theorem Kept.refl (h : Heap) : Kept A B q h h :=
  ⟨le_refl _, le_refl _, le_refl _, rfl, fun _ _ => rfl, fun _ _ => rfl, fun _ _ => rfl, fun _ _ => rfl, fun _ _ => rfl⟩

theorem Kept.trans {h1 h2 h3 : Heap} (a : Kept A B q h1 h2) (b : Kept A B q h2 h3) : Kept A B q h1 h3 :=
  ⟨a.nStop.trans b.nStop, a.nPt.trans b.nPt, a.nRoute.trans b.nRoute, b.route.trans a.route,
    fun x hx => (b.stop x hx).trans (a.stop x hx), fun x hx => (b.pt x hx).trans (a.pt x hx),
    fun x hx => (b.arr x hx).trans (a.arr x hx), fun x hx => (b.dep x hx).trans (a.dep x hx),
    fun x hx => (b.cap x hx).trans (a.cap x hx)⟩

/-- Running `m` in `h` keeps the group and the separation, whether or not it raises. -/
def SafeAt (A B : List Nat) (r q : Nat) {α : Type} (h : Heap) (m : M α) (Q : α → Heap → Prop) : Prop :=
  Kept A B q h (m h).2 ∧ Apart A B r q (m h).2 ∧ ∀ a, (m h).1 = .ok a → Q a (m h).2

/-- A created stop outside the group. -/
def Out (A : List Nat) (h : Heap) (s : Nat) : Prop := s < h.core.nStop ∧ s ∉ A

theorem Out.mono {h h' : Heap} {s : Nat} (k : Kept A B q h h') (ho : Out A h s) : Out A h' s :=
  ⟨lt_of_lt_of_le ho.1 k.nStop, ho.2⟩

namespace SafeAt

variable {α β : Type} {h : Heap}

theorem pure {a : α} {Q : α → Heap → Prop} (ha : Apart A B r q h) (hq : Q a h) :
    SafeAt A B r q h (Pure.pure a : M α) Q :=
  ⟨Kept.refl h, ha, fun b hb => by simp at hb; subst hb; exact hq⟩

theorem raise {e : Err} {Q : α → Heap → Prop} (ha : Apart A B r q h) : SafeAt A B r q h (Py.raise e : M α) Q :=
  ⟨Kept.refl h, ha, fun b hb => by simp at hb⟩

theorem bind {m : M α} {f : α → M β} {Q : α → Heap → Prop} {R : β → Heap → Prop} (hm : SafeAt A B r q h m Q)
    (hf : ∀ a h', Kept A B q h h' → Apart A B r q h' → Q a h' → SafeAt A B r q h' (f a) R) :
    SafeAt A B r q h (m >>= f) R := by
  obtain ⟨k, ap, hq⟩ := hm
  unfold SafeAt
  rw [Py.bind_run]
  cases hmh : m h with
  | mk res h' =>
    rw [hmh] at k ap hq
    cases res with
    | error e => exact ⟨k, ap, fun b hb => by simp at hb⟩
    | ok a =>
      obtain ⟨k2, ap2, hq2⟩ := hf a h' k ap (hq a rfl)
      exact ⟨k.trans k2, ap2, hq2⟩

theorem read {f : Heap → M β} {R : β → Heap → Prop} (hf : SafeAt A B r q h (f h) R) :
    SafeAt A B r q h (Py.read >>= f) R := hf

theorem weaken {m : M α} {Q R : α → Heap → Prop} (hm : SafeAt A B r q h m Q) (hqr : ∀ a h', Q a h' → R a h') :
    SafeAt A B r q h m R := ⟨hm.1, hm.2.1, fun a ha => hqr _ _ (hm.2.2 a ha)⟩

theorem assert {b : Bool} {Q : Unit → Heap → Prop} (ha : Apart A B r q h) (hq : Q () h) :
    SafeAt A B r q h (Py.assert b) Q := by
  cases b
  · exact raise ha
  · exact pure ha hq

theorem index {l : List α} {i : Nat} {Q : α → Heap → Prop} (ha : Apart A B r q h) (hq : ∀ a ∈ l, Q a h) :
    SafeAt A B r q h (Py.index l i) Q := by
  unfold Py.index
  cases hl : l[i]? with
  | none => exact raise ha
  | some a => exact pure ha (hq a (List.mem_of_getElem? hl))

theorem unwrap {o : Option α} {e : Err} {Q : α → Heap → Prop} (ha : Apart A B r q h) (hq : ∀ a, o = some a → Q a h) :
    SafeAt A B r q h (Py.unwrap e o) Q := by
  unfold Py.unwrap
  cases o with
  | none => exact raise ha
  | some a => exact pure ha (hq a rfl)

end SafeAt

/-! ## Getters -/

section
variable {h : Heap}

/-- Writing only memoised values of stops outside the group. -/
theorem safe_cache {h' : Heap} (ha : Apart A B r q h) (hc : h'.core = h.core) (h1 : ∀ x ∈ A, h'.arr x = h.arr x)
    (h2 : ∀ x ∈ A, h'.dep x = h.dep x) (h3 : ∀ x ∈ A, h'.cap x = h.cap x) :
    Kept A B q h h' ∧ Apart A B r q h' := by
  refine ⟨⟨by rw [hc], by rw [hc], by rw [hc], by rw [hc], fun x _ => by rw [hc], fun x _ => by rw [hc], h1, h2, h3⟩, ?_⟩
  obtain ⟨a1, a2, a3, a4, a5, a6, a7, a8⟩ := ha
  constructor <;> (try rw [hc]) <;> assumption

theorem safe_modify {f : Heap → Heap} {Q : Unit → Heap → Prop} (hk : Kept A B q h (f h) ∧ Apart A B r q (f h))
    (hq : Q () (f h)) : SafeAt A B r q h (Py.modify f) Q :=
  ⟨hk.1, hk.2, fun _ _ => hq⟩

/-- A reader of another stop that is safe everywhere. -/
def DepSafe (A B : List Nat) (r q : Nat) (dep : Nat → M ℚ) : Prop :=
  ∀ (h : Heap) (s : Nat), Apart A B r q h → Out A h s → SafeAt A B r q h (dep s) fun _ _ => True

theorem prevDeparture_safe {dep : Nat → M ℚ} (hd : DepSafe A B r q dep) {s : Nat} (ha : Apart A B r q h) (hs : Out A h s) :
    SafeAt A B r q h (prevDepartureWith E dep s) fun _ _ => True := by
  refine SafeAt.read ?_
  cases hp : (h.core.stop s).previous with
  | none => exact SafeAt.pure ha trivial
  | some p => exact hd h p ha (ha.previous s hs.1 hs.2 p hp)

theorem arrival_safe {dep : Nat → M ℚ} (hd : DepSafe A B r q dep) {s : Nat} (ha : Apart A B r q h) (hs : Out A h s) :
    SafeAt A B r q h (arrivalWith E dep s) fun _ _ => True := by
  refine SafeAt.read ?_
  cases hc : h.arr s with
  | some v => exact SafeAt.pure ha trivial
  | none =>
    refine (prevDeparture_safe hd ha hs).bind fun pd h1 k1 a1 _ => ?_
    have tt : SafeAt A B r q h1 (transitTimeWith E dep s) fun _ _ => True :=
      SafeAt.read ((prevDeparture_safe hd a1 (hs.mono k1)).bind fun _ h2 _ a2 _ => SafeAt.pure a2 trivial)
    refine tt.bind fun v h2 k2 a2 _ => ?_
    refine (safe_modify (Q := fun _ _ => True) (safe_cache a2 rfl ?_ (fun _ _ => rfl) (fun _ _ => rfl)) trivial).bind
      fun _ h3 _ a3 _ => SafeAt.pure a3 trivial
    intro x hx
    have : x ≠ s := fun e => hs.2 (e ▸ hx)
    simp [this]

theorem starting_safe {dep : Nat → M ℚ} (hd : DepSafe A B r q dep) {s : Nat} (ha : Apart A B r q h) (hs : Out A h s) :
    SafeAt A B r q h (startingWith E dep s) fun _ _ => True := by
  refine SafeAt.read ?_
  cases (h.core.stop s).start with
  | some v => exact (arrival_safe hd ha hs).bind fun _ h1 _ a1 _ => SafeAt.pure a1 trivial
  | none =>
    exact (arrival_safe hd ha hs).bind fun _ h1 k1 a1 _ =>
      (arrival_safe hd a1 (hs.mono k1)).bind fun _ h2 _ a2 _ => SafeAt.pure a2 trivial

theorem departureF_safe (n : Nat) : DepSafe A B r q (departureF E n) := by
  induction n with
  | zero => intro h s ha _; exact SafeAt.raise ha
  | succ n ih =>
    intro h s ha hs
    unfold departureF
    refine SafeAt.read ?_
    cases hc : h.dep s with
    | some v => exact SafeAt.pure ha trivial
    | none =>
      refine (starting_safe ih ha hs).bind fun st h1 k1 a1 _ => ?_
      refine (safe_modify (Q := fun _ _ => True) (safe_cache a1 rfl (fun _ _ => rfl) ?_ (fun _ _ => rfl)) trivial).bind
        fun _ h3 _ a3 _ => SafeAt.pure a3 trivial
      intro x hx
      have : x ≠ s := fun e => hs.2 (e ▸ hx)
      simp [this]

theorem departure_safe {s : Nat} (ha : Apart A B r q h) (hs : Out A h s) :
    SafeAt A B r q h (departure E s) fun _ _ => True := departureF_safe _ h s ha hs

theorem arrival_safe' {s : Nat} (ha : Apart A B r q h) (hs : Out A h s) :
    SafeAt A B r q h (arrival E s) fun _ _ => True := arrival_safe (departureF_safe _) ha hs

theorem starting_safe' {s : Nat} (ha : Apart A B r q h) (hs : Out A h s) :
    SafeAt A B r q h (starting E s) fun _ _ => True := starting_safe (departureF_safe _) ha hs

theorem timesCheck_safe (l : List Nat) : ∀ h : Heap, Apart A B r q h → (∀ s ∈ l, Out A h s) →
    SafeAt A B r q h (timesCheck E l) fun _ _ => True := by
  induction l with
  | nil => intro h ha _; exact SafeAt.pure ha trivial
  | cons s l ih =>
    intro h ha hs
    cases l with
    | nil => exact SafeAt.pure ha trivial
    | cons t l =>
      unfold timesCheck
      refine (departure_safe ha (hs s (by simp))).bind fun d h1 k1 a1 _ => ?_
      refine (arrival_safe' a1 ((hs t (by simp)).mono k1)).bind fun a h2 k2 a2 _ => ?_
      split
      · exact ih h2 a2 fun x hx => ((hs x (List.mem_cons_of_mem _ hx)).mono k1).mono k2
      · exact SafeAt.pure a2 trivial

/-! ## Edits -/

theorem routeStops_safe (ha : Apart A B r q h) :
    SafeAt A B r q h (routeStops r) fun l h' => ∀ s ∈ l, Out A h' s :=
  SafeAt.read (SafeAt.pure ha ha.stops)

theorem flushStops_safe (ha : Apart A B r q h) {l : List Nat} (hl : ∀ s ∈ l, s ∉ A) :
    Kept A B q h (flushStops h l) ∧ Apart A B r q (flushStops h l) := by
  refine safe_cache ha (by simp) ?_ ?_ ?_
  · intro x hx; rw [flushStops_arr, if_neg fun h => hl x h hx]
  · intro x hx; rw [flushStops_dep, if_neg fun h => hl x h hx]
  · intro x hx; rw [flushStops_cap, if_neg fun h => hl x h hx]

/-- Rewriting a stop outside the group, its `previous` staying outside. -/
theorem setStop_safe (ha : Apart A B r q h) {s : Nat} (hs : Out A h s) (x : StopCore)
    (hx : ∀ p, x.previous = some p → Out A h p) :
    Kept A B q h (h.setStop s x) ∧ Apart A B r q (h.setStop s x) := by
  constructor
  · refine ⟨le_refl _, le_refl _, le_refl _, rfl, ?_, fun _ _ => rfl, fun _ _ => rfl, fun _ _ => rfl, fun _ _ => rfl⟩
    intro y hy
    have : y ≠ s := fun e => hs.2 (e ▸ hy)
    simp [Heap.setStop, this]
  · obtain ⟨a1, a2, a3, a4, a5, a6, a7, a8⟩ := ha
    refine ⟨a1, a2, a3, a4, a5, ?_, a7, a8⟩
    intro y hy hyA p hp
    by_cases e : y = s
    · subst e
      simp only [Heap.setStop, Function.update_self] at hp
      exact hx p hp
    · simp only [Heap.setStop, Function.update_of_ne e] at hp
      exact a6 y hy hyA p hp

theorem setRoute_safe (ha : Apart A B r q h) (x : RouteCore) (hx : ∀ s ∈ x.stops, Out A h s) :
    Kept A B q h (h.setRoute r x) ∧ Apart A B r q (h.setRoute r x) := by
  constructor
  · refine ⟨le_refl _, le_refl _, le_refl _, ?_, fun _ _ => rfl, fun _ _ => rfl, fun _ _ => rfl, fun _ _ => rfl, fun _ _ => rfl⟩
    simp [Heap.setRoute, Ne.symm ha.ne]
  · obtain ⟨a1, a2, a3, a4, a5, a6, a7, a8⟩ := ha
    refine ⟨a1, a2, a3, a4, ?_, a6, a7, a8⟩
    simp only [Heap.setRoute, Function.update_self]
    exact hx

theorem removeStopAt_safe (ha : Apart A B r q h) (idx : Nat) :
    SafeAt A B r q h (removeStopAt r idx) fun _ _ => True := by
  unfold removeStopAt
  refine (routeStops_safe ha).bind fun l h1 k1 a1 hl => ?_
  have hp : SafeAt A B r q h1 (indexPred l idx) fun a h' => Out A h' a := by
    unfold indexPred
    cases idx with
    | zero => exact SafeAt.unwrap a1 fun a e => hl a (List.mem_of_getLast? e)
    | succ i => exact SafeAt.index a1 hl
  refine hp.bind fun prev h2 k2 a2 hprev => ?_
  refine (SafeAt.index (Q := fun a h' => Out A h' a) a2 fun a hm => (hl a hm).mono k2).bind fun f h3 k3 a3 hf => ?_
  refine (safe_modify (Q := fun _ _ => True) (setStop_safe a3 hf _ ?_) trivial).bind fun _ h4 k4 a4 _ => ?_
  · intro p hp
    simp only [Option.some.injEq] at hp
    subst hp
    exact hprev.mono k3
  refine (SafeAt.index (Q := fun _ _ => True) a4 fun _ _ => trivial).bind fun x h5 k5 a5 _ => ?_
  refine (safe_modify (Q := fun _ _ => True) (setRoute_safe a5 _ ?_) trivial).bind fun _ h6 k6 a6 _ => ?_
  · intro s hs
    exact a5.stops s ((List.eraseIdx_sublist _ _).subset hs)
  refine SafeAt.read ?_
  refine (safe_modify (Q := fun _ _ => True) (flushStops_safe a6 ?_) trivial).bind fun _ h7 k7 a7 _ =>
    SafeAt.pure a7 trivial
  intro s hs
  exact (a6.stops s ((List.drop_sublist _ _).subset hs)).2

theorem insertStopAt_safe (ha : Apart A B r q h) {s : Nat} (hs : Out A h s) (idx : Nat) :
    SafeAt A B r q h (insertStopAt r idx s) fun _ _ => True := by
  unfold insertStopAt
  refine (routeStops_safe ha).bind fun l h1 k1 a1 hl => ?_
  refine (SafeAt.index (Q := fun a h' => Out A h' a) a1 fun a hm => hl a hm).bind fun f h2 k2 a2 hf => ?_
  refine SafeAt.read ?_
  refine (SafeAt.assert (Q := fun _ _ => True) a2 trivial).bind fun _ h3 k3 a3 _ => ?_
  refine (safe_modify (Q := fun _ _ => True) (setStop_safe a3 (hf.mono k3) _ ?_) trivial).bind fun _ h4 k4 a4 _ => ?_
  · intro p hp
    simp only [Option.some.injEq] at hp
    subst hp
    exact ((hs.mono k1).mono k2).mono k3
  refine (safe_modify (Q := fun _ _ => True) (setRoute_safe a4 _ ?_) trivial).bind fun _ h6 k6 a6 _ => ?_
  · intro x hx
    simp only at hx
    have : x = s ∨ x ∈ (h4.core.route r).stops := by
      by_cases hle : idx ≤ (h4.core.route r).stops.length
      · rw [List.mem_insertIdx hle] at hx; exact hx
      · rw [List.insertIdx_of_length_lt (by omega)] at hx; exact .inr hx
    rcases this with rfl | hx
    · exact (((hs.mono k1).mono k2).mono k3).mono k4
    · exact a4.stops x hx
  refine SafeAt.read ?_
  refine (safe_modify (Q := fun _ _ => True) (flushStops_safe a6 ?_) trivial).bind fun _ h7 k7 a7 _ =>
    SafeAt.pure a7 trivial
  intro s hs
  exact (a6.stops s ((List.drop_sublist _ _).subset hs)).2

theorem insertStop_safe (ha : Apart A B r q h) {s : Nat} (hs : Out A h s) :
    SafeAt A B r q h (insertStop r s) fun _ _ => True := by
  unfold insertStop
  refine SafeAt.read ?_
  cases (h.core.stop s).previous with
  | none =>
    exact (removeStopAt_safe ha 0).bind fun _ h1 k1 a1 _ => insertStopAt_safe a1 (hs.mono k1) 0
  | some p =>
    simp only
    split
    · exact insertStopAt_safe ha hs _
    · exact SafeAt.raise ha

theorem appendPlannedTrip_safe (ha : Apart A B r q h) {p : Nat} (hp : p < h.core.nPt) (hpB : p ∉ B) :
    SafeAt A B r q h (appendPlannedTrip E r p) fun _ _ => True := by
  unfold appendPlannedTrip
  refine SafeAt.read ?_
  refine (SafeAt.assert (Q := fun _ _ => True) ha trivial).bind fun _ h1 k1 a1 _ => ?_
  refine (SafeAt.assert (Q := fun _ _ => True) a1 trivial).bind fun _ h2 k2 a2 _ => ?_
  refine (SafeAt.assert (Q := fun _ _ => True) a2 trivial).bind fun _ h3 k3 a3 _ => ?_
  have k13 := (k1.trans k2).trans k3
  refine (timesCheck_safe _ h3 a3 fun s hs => Out.mono k13 (ha.stops s hs)).bind fun b h4 k4 a4 _ => ?_
  refine (SafeAt.assert (Q := fun _ _ => True) a4 trivial).bind fun _ h5 k5 a5 _ => ?_
  have k15 := (k13.trans k4).trans k5
  refine SafeAt.bind (Q := fun u h' => Out A h' u) ?_ fun u h6 k6 a6 hu => ?_
  · exact SafeAt.read (SafeAt.unwrap a5 fun u e => a5.pickup p (lt_of_lt_of_le hp k15.nPt) hpB u e)
  refine (insertStop_safe a6 hu).bind fun _ h7 k7 a7 _ => ?_
  have k17 := (k15.trans k6).trans k7
  refine SafeAt.bind (Q := fun u h' => Out A h' u) ?_ fun d h8 k8 a8 hd => ?_
  · exact SafeAt.read (SafeAt.unwrap a7 fun u e => a7.delivery p (lt_of_lt_of_le hp k17.nPt) hpB u e)
  refine (insertStop_safe a8 hd).bind fun _ h9 k9 a9 _ => ?_
  refine SafeAt.read ?_
  refine (SafeAt.assert (Q := fun _ _ => True) a9 trivial).bind fun _ g1 j1 b1 _ => ?_
  refine (timesCheck_safe _ g1 b1 fun s hs => Out.mono j1 (a9.stops s hs)).bind fun b g2 j2 b2 _ => ?_
  exact SafeAt.assert b2 trivial

theorem removeTripLoop_safe (t n : Nat) : ∀ h : Heap, Apart A B r q h →
    SafeAt A B r q h (removeTripLoop r t n) fun _ _ => True := by
  induction n with
  | zero => intro h ha; exact SafeAt.pure ha trivial
  | succ n ih =>
    intro h ha
    unfold removeTripLoop
    refine (routeStops_safe ha).bind fun l h1 k1 a1 hl => ?_
    refine (SafeAt.index (Q := fun _ _ => True) a1 fun _ _ => trivial).bind fun s h2 k2 a2 _ => ?_
    refine SafeAt.read ?_
    split
    · exact (removeStopAt_safe a2 n).bind fun _ h3 _ a3 _ => ih h3 a3
    · exact ih h2 a2

theorem removeTrip_safe (ha : Apart A B r q h) (t : Nat) : SafeAt A B r q h (removeTrip E r t) fun _ _ => True := by
  unfold removeTrip
  refine (routeStops_safe ha).bind fun l h1 k1 a1 hl => ?_
  refine (removeTripLoop_safe t _ h1 a1).bind fun _ h2 k2 a2 _ => ?_
  refine (routeStops_safe a2).bind fun l' h3 k3 a3 hl' => ?_
  refine (SafeAt.assert (Q := fun _ _ => True) a3 trivial).bind fun _ h4 k4 a4 _ => ?_
  refine SafeAt.read ?_
  refine (SafeAt.assert (Q := fun _ _ => True) a4 trivial).bind fun _ h5 k5 a5 _ => ?_
  refine (timesCheck_safe _ h5 a5 fun s hs => Out.mono k5 (Out.mono k4 (hl' s hs))).bind fun b g2 j2 b2 _ => ?_
  exact SafeAt.assert b2 trivial

theorem setStarting_safe (ha : Apart A B r q h) {s : Nat} (hs : Out A h s) (v : ℚ) :
    SafeAt A B r q h (setStarting s v) fun _ _ => True := by
  refine safe_modify ?_ trivial
  obtain ⟨k1, a1⟩ := setStop_safe ha hs { h.core.stop s with start := some v }
    (fun p hp => ha.previous s hs.1 hs.2 p hp)
  obtain ⟨k2, a2⟩ := flushStops_safe (l := [s]) a1 (by simpa using hs.2)
  exact ⟨k1.trans k2, a2⟩

theorem flushRoute_safe (ha : Apart A B r q h) : SafeAt A B r q h (flushRoute r) fun _ _ => True := by
  refine safe_modify ?_ trivial
  refine safe_cache ha ?_ ?_ ?_ ?_
  · simp [foldl_flushPt]
  · intro x hx
    have : x ∉ (h.core.route r).stops := fun h' => (ha.stops x h').2 hx
    simp [foldl_flushPt, flushStops_arr, this]
  · intro x hx
    have : x ∉ (h.core.route r).stops := fun h' => (ha.stops x h').2 hx
    simp [foldl_flushPt, flushStops_dep, this]
  · intro x hx
    have : x ∉ (h.core.route r).stops := fun h' => (ha.stops x h').2 hx
    simp [foldl_flushPt, flushStops_cap, this]

theorem newStop_safe (ha : Apart A B r q h) (v : Nat) (pos : Pos) (prev : Option Nat) (st : Option ℚ)
    (hp : ∀ p, prev = some p → Out A h p) : SafeAt A B r q h (newStop v pos prev st) fun s h' => Out A h' s := by
  have hnew : ∀ x ∈ A, x ≠ h.core.nStop := fun x hx e => by have := ha.aAlloc x hx; omega
  refine ⟨?_, ?_, ?_⟩
  · refine ⟨by simp [newStop, Heap.allocStop], le_refl _, le_refl _, rfl, ?_, fun _ _ => rfl, ?_, ?_, ?_⟩ <;>
      intro x hx <;> simp [newStop, Heap.allocStop, hnew x hx]
  · obtain ⟨a1, a2, a3, a4, a5, a6, a7, a8⟩ := ha
    refine ⟨a1, a2, ?_, a4, ?_, ?_, ?_, ?_⟩
    · intro s hs; exact Nat.lt_succ_of_lt (a3 s hs)
    · intro s hs; exact ⟨Nat.lt_succ_of_lt (a5 s hs).1, (a5 s hs).2⟩
    · intro x hx hxA p hpx
      by_cases e : x = h.core.nStop
      · subst e
        simp only [newStop, Heap.allocStop, Function.update_self] at hpx
        exact ⟨Nat.lt_succ_of_lt (hp p hpx).1, (hp p hpx).2⟩
      · simp only [newStop, Heap.allocStop, Function.update_of_ne e] at hpx
        have hx' : x < h.core.nStop := by simp only [newStop, Heap.allocStop] at hx; omega
        exact ⟨Nat.lt_succ_of_lt (a6 x hx' hxA p hpx).1, (a6 x hx' hxA p hpx).2⟩
    · intro p hpn hpB s hs; exact ⟨Nat.lt_succ_of_lt (a7 p hpn hpB s hs).1, (a7 p hpn hpB s hs).2⟩
    · intro p hpn hpB s hs; exact ⟨Nat.lt_succ_of_lt (a8 p hpn hpB s hs).1, (a8 p hpn hpB s hs).2⟩
  · intro a e
    have : a = h.core.nStop := by simpa [newStop] using e.symm
    subst this
    exact ⟨by simp [newStop, Heap.allocStop], fun hA => hnew _ hA rfl⟩

theorem appendPickup_safe (ha : Apart A B r q h) {s : Nat} (hs : Out A h s) (p : Nat) :
    SafeAt A B r q h (appendPickup E s p) fun _ _ => True := by
  refine SafeAt.read ?_
  refine (SafeAt.assert (Q := fun _ _ => True) ha trivial).bind fun _ h1 k1 a1 _ => ?_
  exact safe_modify (setStop_safe a1 (hs.mono k1) _
    fun p hp => a1.previous s (hs.mono k1).1 (hs.mono k1).2 p hp) trivial

theorem appendDelivery_safe (ha : Apart A B r q h) {s : Nat} (hs : Out A h s) (p : Nat) :
    SafeAt A B r q h (appendDelivery E s p) fun _ _ => True := by
  refine SafeAt.read ?_
  refine (SafeAt.assert (Q := fun _ _ => True) ha trivial).bind fun _ h1 k1 a1 _ => ?_
  exact safe_modify (setStop_safe a1 (hs.mono k1) _
    fun p hp => a1.previous s (hs.mono k1).1 (hs.mono k1).2 p hp) trivial

theorem newPlannedTrip_safe (ha : Apart A B r q h) (v t : Nat) (pu de : Option Nat)
    (h1 : ∀ s, pu = some s → Out A h s) (h2 : ∀ s, de = some s → Out A h s) :
    SafeAt A B r q h (newPlannedTrip E v t pu de) fun _ _ => True := by
  unfold newPlannedTrip
  refine SafeAt.read ?_
  have hnew : ∀ x ∈ B, x ≠ h.core.nPt := fun x hx e => by have := ha.bAlloc x hx; omega
  have hk : Kept A B q h (h.allocPt ⟨v, t, pu, de⟩) ∧ Apart A B r q (h.allocPt ⟨v, t, pu, de⟩) := by
    constructor
    · refine ⟨le_refl _, by simp [Heap.allocPt], le_refl _, rfl, fun _ _ => rfl, ?_, fun _ _ => rfl, fun _ _ => rfl, fun _ _ => rfl⟩
      intro x hx
      simp [Heap.allocPt, hnew x hx]
    · obtain ⟨a1, a2, a3, a4, a5, a6, a7, a8⟩ := ha
      refine ⟨a1, a2, a3, ?_, a5, a6, ?_, ?_⟩
      · intro p hp; exact Nat.lt_succ_of_lt (a4 p hp)
      · intro p hp hpB s hs
        by_cases e : p = h.core.nPt
        · subst e
          simp only [Heap.allocPt, Function.update_self] at hs
          exact h1 s hs
        · simp only [Heap.allocPt, Function.update_of_ne e] at hs
          have hp' : p < h.core.nPt := by simp only [Heap.allocPt] at hp; omega
          exact a7 p hp' hpB s hs
      · intro p hp hpB s hs
        by_cases e : p = h.core.nPt
        · subst e
          simp only [Heap.allocPt, Function.update_self] at hs
          exact h2 s hs
        · simp only [Heap.allocPt, Function.update_of_ne e] at hs
          have hp' : p < h.core.nPt := by simp only [Heap.allocPt] at hp; omega
          exact a8 p hp' hpB s hs
  refine (safe_modify (Q := fun _ _ => True) hk trivial).bind fun _ g1 j1 b1 _ => ?_
  have s1 : SafeAt A B r q g1 (ifSome pu fun s => appendPickup E s h.core.nPt) fun _ _ => True := by
    cases pu with
    | none => exact SafeAt.pure b1 trivial
    | some s => exact appendPickup_safe b1 ((h1 s rfl).mono j1) _
  refine s1.bind fun _ g2 j2 b2 _ => ?_
  have s2 : SafeAt A B r q g2 (ifSome de fun s => appendDelivery E s h.core.nPt) fun _ _ => True := by
    cases de with
    | none => exact SafeAt.pure b2 trivial
    | some s => exact appendDelivery_safe b2 (((h2 s rfl).mono j1).mono j2) _
  exact s2.bind fun _ g3 _ b3 _ => SafeAt.pure b3 trivial

end

end Jinete
