import Verif.Proofs.MilpBuild

/-!
# Setting the times of the new stops and inserting them in the route
-/

set_option autoImplicit false

namespace Jinete

variable {E : Env}

/-! ## `_adjust_waiting_times` -/

/-- What the loop over the stops leaves behind. -/
structure Timed (h h' : Heap) (L : List Nat) (time : Pos → ℚ) : Prop where
  stop : ∀ s, h'.core.stop s = if s ∈ L then { h.core.stop s with start := some (time (h.core.stop s).position) }
    else h.core.stop s
  pt : h'.core.pt = h.core.pt
  route : h'.core.route = h.core.route
  counts : h'.core.nStop = h.core.nStop ∧ h'.core.nPt = h.core.nPt ∧ h'.core.nRoute = h.core.nRoute
  sfeas : h'.sfeas = h.sfeas
  rfeas : h'.rfeas = h.rfeas
  blank : ∀ s ∈ L, Blank h' s
  other : ∀ s, s ∉ L → h'.arr s = h.arr s ∧ h'.dep s = h.dep s ∧ h'.cap s = h.cap s
  pfeas : ∀ p, h'.pfeas p = if p ∈ L.flatMap (ptsAt h.core) then none else h.pfeas p

theorem Timed.above {h h' : Heap} {L : List Nat} {time : Pos → ℚ} (t : Timed h h' L time) (n q m : Nat)
    (hn : ∀ s ∈ L, n ≤ s) (hq : ∀ s ∈ L, ∀ p ∈ ptsAt h.core s, q ≤ p) : Above n q m h h' where
  nStop := t.counts.1.ge
  nPt := t.counts.2.1.ge
  nRoute := t.counts.2.2.ge
  stop x hx := by
    rw [t.stop x, if_neg]
    intro hm; have := hn x hm; omega
  caches x hx := by
    have hm : x ∉ L := by intro hm; have := hn x hm; omega
    obtain ⟨a, b, c⟩ := t.other x hm
    exact ⟨a, b, c, by rw [t.sfeas]⟩
  pt p hp := by
    rw [t.pt, t.pfeas p, if_neg]
    · exact ⟨rfl, rfl⟩
    · intro hm
      obtain ⟨s, hs, hps⟩ := List.mem_flatMap.1 hm
      have := hq s hs p hps; omega
  route x hx := by rw [t.route, t.rfeas]; exact ⟨rfl, rfl⟩

theorem adjustWaitingTime_run {P : Milp} {a : Assignment} {k s : Nat} {h : Heap} (hp : (h.core.stop s).position ∈ P.positions) :
    ∃ h', adjustWaitingTime P a k s h = (.ok (), h') ∧ Timed h h' [s] fun p => a.u k (P.positions.idxOf p) := by
  refine ⟨flushStop ((flushStop h s).setStop s { (flushStop h s).core.stop s with
    start := some (a.u k (P.positions.idxOf (h.core.stop s).position)) }) s, ?_, ?_⟩
  · unfold adjustWaitingTime
    rw [Py.modify_bind, Py.read_bind]
    have e : idxByPosition P ((flushStop h s).core.stop s).position (flushStop h s) =
        (.ok (P.positions.idxOf (h.core.stop s).position), flushStop h s) := by
      unfold idxByPosition
      rw [flushStop_core, if_pos hp]
      rfl
    rw [Py.bind_ok e]
    rfl
  · have hpts : ptsAt ((flushStop h s).setStop s { (flushStop h s).core.stop s with
        start := some (a.u k (P.positions.idxOf (h.core.stop s).position)) }).core s = ptsAt h.core s := by
      simp [ptsAt, Heap.setStop]
    constructor
    · intro x
      rw [flushStop_core]
      by_cases hx : x = s
      · subst hx; simp [Heap.setStop]
      · simp [Heap.setStop, hx]
    · rw [flushStop_core]; simp [Heap.setStop]
    · rw [flushStop_core]; simp [Heap.setStop]
    · rw [flushStop_core]; simp [Heap.setStop]
    · rw [flushStop_eq]; simp [Heap.setStop, flushStop_eq]
    · rw [flushStop_eq]; simp [Heap.setStop, flushStop_eq]
    · intro x hx
      rw [List.mem_singleton] at hx
      subst hx
      rw [flushStop_eq]
      exact ⟨Function.update_self _ _ _, Function.update_self _ _ _, Function.update_self _ _ _⟩
    · intro x hx
      rw [List.mem_singleton] at hx
      rw [flushStop_eq]
      simp only [Heap.setStop, flushStop_eq]
      simp [Function.update_of_ne hx]
    · intro p
      rw [flushStop_eq]
      simp only [hpts]
      by_cases hp : p ∈ ptsAt h.core s
      · simp [hp]
      · simp [hp, Heap.setStop, flushStop_eq]

theorem Timed.cons {h h1 h2 : Heap} {s : Nat} {L : List Nat} {time : Pos → ℚ} (t : Timed h h1 [s] time)
    (t' : Timed h1 h2 L time) : Timed h h2 (s :: L) time := by
  have hpos : ∀ x, (h1.core.stop x).position = (h.core.stop x).position := by
    intro x; rw [t.stop x]; split <;> rfl
  have hpts : ∀ x, ptsAt h1.core x = ptsAt h.core x := by
    intro x; unfold ptsAt; rw [t.stop x]; split <;> rfl
  constructor
  · intro x
    rw [t'.stop x, hpos, t.stop x]
    by_cases hx : x = s
    · subst hx; by_cases hL : x ∈ L <;> simp [hL]
    · by_cases hL : x ∈ L <;> simp [hL, hx]
  · rw [t'.pt, t.pt]
  · rw [t'.route, t.route]
  · exact ⟨t'.counts.1.trans t.counts.1, t'.counts.2.1.trans t.counts.2.1, t'.counts.2.2.trans t.counts.2.2⟩
  · rw [t'.sfeas, t.sfeas]
  · rw [t'.rfeas, t.rfeas]
  · intro x hx
    by_cases hL : x ∈ L
    · exact t'.blank x hL
    · have hxs : x = s := by
        rcases List.mem_cons.1 hx with h | h
        · exact h
        · exact absurd h hL
      have b := t.blank x (by simp [hxs])
      obtain ⟨a1, a2, a3⟩ := t'.other x hL
      exact ⟨a1.trans b.arr, a2.trans b.dep, a3.trans b.cap⟩
  · intro x hx
    rw [List.mem_cons, not_or] at hx
    obtain ⟨a1, a2, a3⟩ := t'.other x hx.2
    obtain ⟨b1, b2, b3⟩ := t.other x (by simpa using hx.1)
    exact ⟨a1.trans b1, a2.trans b2, a3.trans b3⟩
  · intro p
    rw [t'.pfeas p, t.pfeas p]
    have e : L.flatMap (ptsAt h1.core) = L.flatMap (ptsAt h.core) := by
      refine List.flatMap_congr fun x _ => hpts x
    rw [e]
    simp only [List.flatMap_cons, List.flatMap_nil, List.append_nil, List.mem_append]
    by_cases h1 : p ∈ ptsAt h.core s <;> by_cases h2 : p ∈ L.flatMap (ptsAt h.core) <;> simp [h1, h2]

theorem adjustAll_run {P : Milp} {a : Assignment} {k : Nat} : ∀ (L : List Nat) (h : Heap),
    (∀ s ∈ L, (h.core.stop s).position ∈ P.positions) →
    ∃ h', Py.forEach L (adjustWaitingTime P a k) h = (.ok (), h') ∧ Timed h h' L fun p => a.u k (P.positions.idxOf p) := by
  intro L
  induction L with
  | nil =>
    intro h _
    exact ⟨h, rfl, fun _ => by simp, rfl, rfl, ⟨rfl, rfl, rfl⟩, rfl, rfl, by simp, fun _ _ => ⟨rfl, rfl, rfl⟩, by simp⟩
  | cons s L ih =>
    intro h hp
    obtain ⟨h1, r1, t1⟩ := adjustWaitingTime_run (a := a) (k := k) (hp s (by simp))
    have hpos : ∀ x, (h1.core.stop x).position = (h.core.stop x).position := by
      intro x; rw [t1.stop x]; split <;> rfl
    obtain ⟨h2, r2, t2⟩ := ih h1 fun x hx => by rw [hpos]; exact hp x (List.mem_cons_of_mem _ hx)
    refine ⟨h2, ?_, t1.cons t2⟩
    rw [Py.forEach, Py.bind_ok r1, r2]

/-! ## Inserting the stops -/

/-- What the insertions leave behind: the stops `z0 :: F` before the last stop `w`. -/
structure Inserted (h h' : Heap) (r w : Nat) (L : List Nat) (last : Nat) : Prop where
  stop : ∀ s, s ≠ w → h'.core.stop s = h.core.stop s
  final : h'.core.stop w = { h.core.stop w with previous := some last }
  pt : h'.core.pt = h.core.pt
  route : h'.core.route = Function.update h.core.route r { h.core.route r with stops := L ++ [w] }
  counts : h'.core.nStop = h.core.nStop ∧ h'.core.nPt = h.core.nPt ∧ h'.core.nRoute = h.core.nRoute
  sfeas : h'.sfeas = h.sfeas
  rfeas : h'.rfeas = h.rfeas
  blank : ∀ s ∈ L ++ [w], h.arr s = none ∧ h.dep s = none ∧ h.cap s = none → Blank h' s
  other : ∀ s, s ∉ L ++ [w] → h'.arr s = h.arr s ∧ h'.dep s = h.dep s ∧ h'.cap s = h.cap s
  pfeas : ∀ p, h'.pfeas p = h.pfeas p ∨ (h'.pfeas p = none ∧ p ∈ (L ++ [w]).flatMap (ptsAt h.core))

theorem Inserted.trans {h h1 h2 : Heap} {r w : Nat} {L L' : List Nat} {x y : Nat} (a : Inserted h h1 r w L x)
    (b : Inserted h1 h2 r w L' y) (hsub : ∀ s ∈ L, s ∈ L') (hw : w ∉ L') : Inserted h h2 r w L' y := by
  have hpts : ∀ x, ptsAt h1.core x = ptsAt h.core x := by
    intro s
    by_cases e : s = w
    · subst e; unfold ptsAt; rw [a.final]
    · unfold ptsAt; rw [a.stop s e]
  have hsub' : ∀ s ∈ L ++ [w], s ∈ L' ++ [w] := by
    intro s hs
    rcases List.mem_append.1 hs with hs | hs
    · exact List.mem_append_left _ (hsub s hs)
    · exact List.mem_append_right _ hs
  constructor
  · intro s hs; rw [b.stop s hs, a.stop s hs]
  · rw [b.final, a.final]
  · rw [b.pt, a.pt]
  · rw [b.route, a.route]; simp
  · exact ⟨b.counts.1.trans a.counts.1, b.counts.2.1.trans a.counts.2.1, b.counts.2.2.trans a.counts.2.2⟩
  · rw [b.sfeas, a.sfeas]
  · rw [b.rfeas, a.rfeas]
  · intro s hs hb
    refine b.blank s hs ?_
    by_cases hL : s ∈ L ++ [w]
    · have := a.blank s hL hb
      exact ⟨this.arr, this.dep, this.cap⟩
    · obtain ⟨e1, e2, e3⟩ := a.other s hL
      rw [e1, e2, e3]; exact hb
  · intro s hs
    obtain ⟨e1, e2, e3⟩ := b.other s hs
    obtain ⟨f1, f2, f3⟩ := a.other s fun h => hs (hsub' s h)
    exact ⟨e1.trans f1, e2.trans f2, e3.trans f3⟩
  · intro p
    have e : (L' ++ [w]).flatMap (ptsAt h1.core) = (L' ++ [w]).flatMap (ptsAt h.core) :=
      List.flatMap_congr fun x _ => hpts x
    rcases b.pfeas p with h1 | ⟨h1, h2⟩
    · rcases a.pfeas p with h3 | ⟨h3, h4⟩
      · exact .inl (h1.trans h3)
      · refine .inr ⟨h1.trans h3, ?_⟩
        obtain ⟨s, hs, hps⟩ := List.mem_flatMap.1 h4
        exact List.mem_flatMap.2 ⟨s, hsub' s hs, hps⟩
    · exact .inr ⟨h1, e ▸ h2⟩

theorem Inserted.above {h h' : Heap} {r w : Nat} {L : List Nat} {x : Nat} (a : Inserted h h' r w L x) (n q m : Nat)
    (hn : ∀ s ∈ L ++ [w], n ≤ s) (hq : ∀ s ∈ L ++ [w], ∀ p ∈ ptsAt h.core s, q ≤ p) (hm : m ≤ r) : Above n q m h h' where
  nStop := a.counts.1.ge
  nPt := a.counts.2.1.ge
  nRoute := a.counts.2.2.ge
  stop s hs := a.stop s fun e => by have := hn w (by simp); omega
  caches s hs := by
    have hL : s ∉ L ++ [w] := fun h => by have := hn s h; omega
    obtain ⟨e1, e2, e3⟩ := a.other s hL
    exact ⟨e1, e2, e3, by rw [a.sfeas]⟩
  pt p hp := by
    refine ⟨by rw [a.pt], ?_⟩
    rcases a.pfeas p with h1 | ⟨_, h2⟩
    · exact h1
    · obtain ⟨s, hs, hps⟩ := List.mem_flatMap.1 h2
      have := hq s hs p hps; omega
  route s hs := by rw [a.route, a.rfeas, Function.update_of_ne (by omega)]; exact ⟨rfl, rfl⟩

/-- Reinserting the first stop of an empty route: the route is left as it was. -/
theorem reinsert_first {h : Heap} {r z w : Nat} (hr : (h.core.route r).stops = [z, w]) (hz : (h.core.stop z).previous = none)
    (hw : (h.core.stop w).previous = some z) (hzw : z ≠ w)
    (hd : ∀ p ∈ (h.core.stop z).pickups, p ∉ (h.core.stop z).deliveries) :
    ∃ x h', insertStop r z h = (.ok x, h') ∧ Inserted h h' r w [z] z := by
  have run1 : removeStopAt r 0 h = (.ok z, flushStops ((h.setStop w { h.core.stop w with previous := some w }).setRoute r
      { h.core.route r with stops := [w] }) [w]) := by
    unfold removeStopAt
    have h1 : routeStops r h = (.ok [z, w], h) := by simp [routeStops, hr]
    rw [Py.bind_ok h1]
    have h2 : indexPred [z, w] 0 h = (.ok w, h) := rfl
    rw [Py.bind_ok h2]
    have h3 : (Py.index [z, w] (0 + 1) : M Nat) h = (.ok w, h) := rfl
    rw [Py.bind_ok h3, Py.modify_bind]
    have h4 : ∀ h' : Heap, (Py.index [z, w] 0 : M Nat) h' = (.ok z, h') := fun _ => rfl
    rw [Py.bind_ok (h4 _)]
    simp only [Py.modify_bind, Py.read_bind, Py.pure_run]
    simp [Heap.setStop, Heap.setRoute, hr]
  generalize hh1 : flushStops ((h.setStop w { h.core.stop w with previous := some w }).setRoute r
      { h.core.route r with stops := [w] }) [w] = h1 at run1
  have hs1 : h1.core.stop z = h.core.stop z := by
    rw [← hh1]; simp [Heap.setStop, Heap.setRoute, hzw]
  have hw1 : h1.core.stop w = { h.core.stop w with previous := some w } := by
    rw [← hh1]; simp [Heap.setStop, Heap.setRoute]
  have e1 : (h1.core.route r).stops = [] ++ w :: [] := by rw [← hh1]; simp [Heap.setRoute]
  have run2 := insertStopAt_run (s := z) e1 (by rw [hs1]; exact hd)
  refine ⟨([w].getLast?).getD z, afterInsert h1 r z w [] [], ?_, ?_⟩
  · unfold insertStop
    rw [Py.read_bind, hz]
    simp only
    rw [Py.bind_ok run1]
    exact run2
  · constructor
    · intro s hs
      rw [afterInsert_stop, if_neg hs, ← hh1]
      simp [Heap.setStop, Heap.setRoute, hs]
    · rw [afterInsert_stop, if_pos rfl, hw1]
    · rw [afterInsert_pt, ← hh1]; simp [Heap.setStop, Heap.setRoute]
    · funext q
      by_cases hq : q = r
      · subst hq
        rw [Function.update_self]
        have k1 : ((afterInsert h1 q z w [] []).core.route q).stops = [z] ++ [w] := by simp
        have k2 : ((afterInsert h1 q z w [] []).core.route q).vehicle = (h.core.route q).vehicle := by
          rw [afterInsert_vehicle, ← hh1]; simp [Heap.setRoute]
        cases hc : (afterInsert h1 q z w [] []).core.route q with
        | mk a b => rw [hc] at k1 k2; simp only at k1 k2; rw [k1, k2]
      · rw [Function.update_of_ne hq, afterInsert_route_ne hq, ← hh1]
        simp [Heap.setStop, Heap.setRoute, hq]
    · rw [afterInsert_nStop, afterInsert_nPt, afterInsert_nRoute, ← hh1]; simp [Heap.setStop, Heap.setRoute]
    · rw [afterInsert_sfeas, ← hh1]; simp [Heap.setStop, Heap.setRoute]
    · rw [afterInsert_rfeas, ← hh1]; simp [Heap.setStop, Heap.setRoute]
    · intro s hs _
      exact afterInsert_blank (by simpa using hs)
    · intro s hs
      have hs' : s ∉ z :: w :: [] := by simpa using hs
      have a := afterInsert_same (h := h1) (r := r) (pre := []) hs'
      have hsw : s ∉ [w] := by simp only [List.mem_append, not_or] at hs; exact hs.2
      rw [a.arr, a.dep, a.cap, ← hh1]
      rw [flushStops_arr, flushStops_dep, flushStops_cap, if_neg hsw, if_neg hsw, if_neg hsw]
      exact ⟨rfl, rfl, rfl⟩
    · intro p
      have hp1 : ∀ x, ptsAt h1.core x = ptsAt h.core x := by
        intro x
        by_cases e : x = w
        · subst e; unfold ptsAt; rw [hw1]
        · unfold ptsAt
          rw [← hh1]; simp [Heap.setStop, Heap.setRoute, e]
      have hp2 : ∀ x, ptsAt (((h1.setStop w { h1.core.stop w with previous := some z }).setRoute r
          { h1.core.route r with stops := [] ++ z :: w :: [] })).core x = ptsAt h.core x := by
        intro x
        rw [← hp1 x]
        unfold ptsAt
        by_cases e : x = w
        · subst e; simp [Heap.setStop, Heap.setRoute]
        · simp [Heap.setStop, Heap.setRoute, e]
      have hp3 : ∀ x, ptsAt (((h.setStop w { h.core.stop w with previous := some w }).setRoute r
          { h.core.route r with stops := [w] })).core x = ptsAt h.core x := by
        intro x
        unfold ptsAt
        by_cases e : x = w
        · subst e; simp [Heap.setStop, Heap.setRoute]
        · simp [Heap.setStop, Heap.setRoute, e]
      have e2 : (afterInsert h1 r z w [] []).pfeas p = if p ∈ [z, w].flatMap (ptsAt h.core) then none else h1.pfeas p := by
        unfold afterInsert
        rw [flushStops_pfeas]
        rw [List.flatMap_congr fun x _ => hp2 x]
        rfl
      have e3 : h1.pfeas p = if p ∈ [w].flatMap (ptsAt h.core) then none else h.pfeas p := by
        rw [← hh1, flushStops_pfeas, List.flatMap_congr fun x _ => hp3 x]
        rfl
      rw [e2, e3]
      by_cases c1 : p ∈ [z, w].flatMap (ptsAt h.core)
      · rw [if_pos c1]; exact .inr ⟨rfl, c1⟩
      · rw [if_neg c1, if_neg]
        · exact .inl rfl
        · intro c2
          exact c1 (List.mem_flatMap.2 (by
            obtain ⟨s, hs, hps⟩ := List.mem_flatMap.1 c2
            exact ⟨s, List.mem_cons_of_mem _ hs, hps⟩))

theorem insert_one {h : Heap} {r z w s : Nat} {pre : List Nat} (hr : (h.core.route r).stops = pre ++ [z, w])
    (hn : (pre ++ [z, w]).Nodup) (hs : (h.core.stop s).previous = some z)
    (hd : ∀ p ∈ (h.core.stop s).pickups, p ∉ (h.core.stop s).deliveries) :
    ∃ x h', insertStop r s h = (.ok x, h') ∧ Inserted h h' r w (pre ++ [z] ++ [s]) s := by
  refine ⟨_, _, insertStop_run (pre := pre) (p := z) (f := w) (suf := []) (by rw [hr]; exact hn) (by rw [hr]) hs hd, ?_⟩
  constructor
  · intro x hx; rw [afterInsert_stop, if_neg hx]
  · rw [afterInsert_stop, if_pos rfl]
  · exact afterInsert_pt
  · funext q
    by_cases hq : q = r
    · subst hq
      rw [Function.update_self]
      have h1 : ((afterInsert h q s w (pre ++ [z]) []).core.route q).stops = pre ++ [z] ++ [s] ++ [w] := by simp
      have h2 : ((afterInsert h q s w (pre ++ [z]) []).core.route q).vehicle = (h.core.route q).vehicle := afterInsert_vehicle
      cases hc : (afterInsert h q s w (pre ++ [z]) []).core.route q with
      | mk a b => rw [hc] at h1 h2; simp only at h1 h2; rw [h1, h2]
    · rw [Function.update_of_ne hq, afterInsert_route_ne hq]
  · exact ⟨afterInsert_nStop, afterInsert_nPt, afterInsert_nRoute⟩
  · exact afterInsert_sfeas
  · exact afterInsert_rfeas
  · intro x hx hb
    by_cases hm : x ∈ s :: w :: []
    · exact afterInsert_blank hm
    · have a := afterInsert_same (h := h) (r := r) (pre := pre ++ [z]) hm
      exact ⟨a.arr.trans hb.1, a.dep.trans hb.2.1, a.cap.trans hb.2.2⟩
  · intro x hx
    have hm : x ∉ s :: w :: [] := by
      simp only [List.mem_append, List.mem_singleton, not_or] at hx
      simp only [List.mem_cons, List.not_mem_nil, or_false, not_or]
      exact ⟨hx.1.2, hx.2⟩
    have a := afterInsert_same (h := h) (r := r) (pre := pre ++ [z]) hm
    exact ⟨a.arr, a.dep, a.cap⟩
  · intro p
    unfold afterInsert
    rw [flushStops_pfeas]
    have hp2 : ∀ x, ptsAt ((h.setStop w { h.core.stop w with previous := some s }).setRoute r
        { h.core.route r with stops := (pre ++ [z]) ++ s :: w :: [] }).core x = ptsAt h.core x := by
      intro x
      unfold ptsAt
      by_cases e : x = w
      · subst e; simp [Heap.setStop, Heap.setRoute]
      · simp [Heap.setStop, Heap.setRoute, e]
    rw [List.flatMap_congr fun x _ => hp2 x]
    by_cases c1 : p ∈ [s, w].flatMap (ptsAt h.core)
    · rw [if_pos c1]
      refine .inr ⟨rfl, ?_⟩
      obtain ⟨x, hx, hpx⟩ := List.mem_flatMap.1 c1
      refine List.mem_flatMap.2 ⟨x, ?_, hpx⟩
      simp only [List.mem_cons, List.not_mem_nil, or_false] at hx
      rcases hx with rfl | rfl <;> simp
    · rw [if_neg c1]; exact .inl rfl

theorem insertStops_run {r w : Nat} : ∀ (F : List Nat) (h : Heap) (pre : List Nat) (z : Nat),
    (h.core.route r).stops = pre ++ [z, w] → (pre ++ [z] ++ F ++ [w]).Nodup → LinkedFrom h.core (some z) F →
    (h.core.stop w).previous = some z →
    (∀ s ∈ F, ∀ p ∈ (h.core.stop s).pickups, p ∉ (h.core.stop s).deliveries) →
    ∃ h', Py.forEach F (fun s => do let _ ← insertStop r s) h = (.ok (), h') ∧
      Inserted h h' r w (pre ++ [z] ++ F) ((z :: F).getLast (by simp)) := by
  intro F
  induction F with
  | nil =>
    intro h pre z hr hn _ hw _
    refine ⟨h, rfl, fun _ _ => rfl, ?_, rfl, ?_, ⟨rfl, rfl, rfl⟩, rfl, rfl, ?_, fun _ _ => ⟨rfl, rfl, rfl⟩, fun _ => .inl rfl⟩
    · simp only [List.getLast_singleton]
      rw [← hw]
    · have : ({ h.core.route r with stops := pre ++ [z] ++ [] ++ [w] } : RouteCore) = h.core.route r := by
        have e : pre ++ [z] ++ [] ++ [w] = (h.core.route r).stops := by rw [hr]; simp
        rw [e]
      rw [this, Function.update_eq_self]
    · intro s _ hb; exact ⟨hb.1, hb.2.1, hb.2.2⟩
  | cons s F ih =>
    intro h pre z hr hn hl hw hd
    have hwn : w ∉ pre ++ [z] ++ (s :: F) := by
      intro hm
      exact (List.nodup_append.1 hn).2.2 w hm w (by simp) rfl
    have hn1 : (pre ++ [z, w]).Nodup := by
      refine hn.sublist ?_
      have : pre ++ [z, w] = (pre ++ [z]) ++ ([] ++ [w]) := by simp
      rw [this, List.append_assoc (pre ++ [z])]
      exact List.Sublist.append_left (List.Sublist.append_right (List.nil_sublist _) _) _
    obtain ⟨x, h1, r1, i1⟩ := insert_one (s := s) hr hn1 hl.1 (hd s (by simp))
    have hmem : ∀ y ∈ s :: F, y ≠ w := fun y hy e => hwn (e ▸ List.mem_append_right _ hy)
    have hl1 : LinkedFrom h1.core (some s) F := hl.2.congr fun y hy => by
      rw [i1.stop y (hmem y (List.mem_cons_of_mem _ hy))]
    obtain ⟨h2, r2, i2⟩ := ih h1 (pre ++ [z]) s (by rw [i1.route]; simp) (by simpa using hn) hl1 (by rw [i1.final])
      (fun y hy => by
        rw [i1.stop y (hmem y (List.mem_cons_of_mem _ hy))]
        exact hd y (List.mem_cons_of_mem _ hy))
    refine ⟨h2, ?_, ?_⟩
    · rw [Py.forEach]
      have e : (do let _ ← insertStop r s : M Unit) h = (.ok (), h1) := by
        rw [Py.bind_ok r1]; rfl
      rw [Py.bind_ok e, r2]
    · have e1 : pre ++ [z] ++ s :: F = pre ++ [z] ++ [s] ++ F := by simp
      rw [e1]
      have e2 : (z :: s :: F).getLast (by simp) = (s :: F).getLast (by simp) := by simp
      rw [e2]
      refine i1.trans i2 ?_ ?_
      · intro y hy; exact List.mem_append_left _ hy
      · rw [← e1]; exact hwn

end Jinete
