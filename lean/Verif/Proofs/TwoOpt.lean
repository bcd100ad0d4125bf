import Verif.Proofs.Draft
import Verif.Proofs.Values
import Verif.Proofs.Copy
import Verif.Proofs.Reach
import Verif.Spec.LocalSearch

/-!
# Two-opt candidates
-/

set_option autoImplicit false

namespace Jinete

variable {E : Env}

theorem cloneRoute_eq {h h' : Heap} {r d r' idx : Nat} (e : cloneRouteIdx E r d h = (.ok (r', idx), h')) :
    cloneRoute E r d h = (.ok r', h') := by
  unfold cloneRoute
  rw [Py.bind_ok e]; rfl

/-- Removing a series of inner stops. -/
theorem removeMany_run {h0 h1 : Heap} {r : Nat} {F A B : List Nat} (hA : A ≠ []) (hB : B ≠ []) (hBF : ∀ x ∈ B, x ∈ F) :
    ∀ (M : List Nat) {g : Heap}, (∀ x ∈ M, x ∈ F) → Draft h0 h1 r F g → Chained g.core r → CachesAgree E g r →
      (g.core.route r).stops = A ++ (M ++ B) →
      ∃ g', removeMany r A.length M.length g = (.ok M, g') ∧ Draft h0 h1 r F g' ∧ Chained g'.core r ∧ CachesAgree E g' r ∧
        (g'.core.route r).stops = A ++ B := by
  obtain ⟨A', a, rfl⟩ := exists_concat hA
  intro M
  induction M with
  | nil => intro g _ d hc ha e; exact ⟨g, rfl, d, hc, ha, by simpa using e⟩
  | cons x M ih =>
    intro g hM d hc ha e
    obtain ⟨b, suf, hb⟩ : ∃ b suf, M ++ B = b :: suf := by
      cases hh : M ++ B with
      | nil => simp at hh; exact absurd hh.2 hB
      | cons b s => exact ⟨b, s, rfl⟩
    have e' : (g.core.route r).stops = A' ++ a :: x :: b :: suf := by rw [e, List.cons_append, hb]; simp
    have hin : ∀ y ∈ b :: suf, y ∈ F := by
      rw [← hb]
      intro y hy
      rcases List.mem_append.1 hy with hy | hy
      · exact hM y (by simp [hy])
      · exact hBF y hy
    have r1 := removeStopAt_run (r := r) e'
    obtain ⟨hc1, ha1⟩ := afterRemove_ok (E := E) hc ha e'
    obtain ⟨g', e2, d2, hc2, ha2, es2⟩ := ih (g := afterRemove g r a b A' suf) (fun y hy => hM y (by simp [hy]))
      (d.remove hin) hc1 ha1 (by rw [afterRemove_stops, ← hb]; simp)
    refine ⟨g', ?_, d2, hc2, ha2, es2⟩
    have hl : (A' ++ [a]).length = A'.length + 1 := by simp
    rw [List.length_cons, removeMany, hl, Py.bind_ok r1]
    rw [hl] at e2
    rw [Py.bind_ok e2]; rfl

/-- Setting the link of a stop outside the route. -/
theorem link_outside {g : Heap} {r s : Nat} {q : Option Nat} (hc : Chained g.core r) (ha : CachesAgree E g r)
    (hs : s ∉ (g.core.route r).stops) :
    Chained (g.setStop s { g.core.stop s with previous := q }).core r ∧
      CachesAgree E (g.setStop s { g.core.stop s with previous := q }) r := by
  refine splice_ok (pre := (g.core.route r).stops) (suf := []) (suf' := []) hc ha (by simp) (by simp [Heap.setStop]) rfl
    (le_refl _) (by simpa using hc.nodup) ?_ trivial (by simp) (by simp) (by simp)
  intro x hx
  have hne : x ≠ s := by rintro rfl; exact hs hx
  have he : (g.setStop s { g.core.stop s with previous := q }).core.stop x = g.core.stop x := by
    simp [Heap.setStop, hne]
  exact ⟨⟨by unfold visitOf; rw [he]; rfl, by rw [he]⟩, by rw [he], rfl, rfl, rfl⟩

/-- Appending stops before the last one. -/
theorem reinsert_run {h0 h1 : Heap} {r f : Nat} {F : List Nat} (hw : WellFormed h1.core r) (hf : f ∈ F) :
    ∀ (l : List Nat) {A : List Nat} {g : Heap}, A ≠ [] → (∀ x ∈ l, x ∈ F ∧ x ∈ (h1.core.route r).stops) →
      Draft h0 h1 r F g → Chained g.core r → CachesAgree E g r → (g.core.route r).stops = A ++ [f] →
      (A ++ [f] ++ l).Nodup →
      ∃ g', reinsert r l g = (.ok (), g') ∧ Draft h0 h1 r F g' ∧ Chained g'.core r ∧ CachesAgree E g' r ∧
        (g'.core.route r).stops = A ++ l ++ [f] := by
  intro l
  induction l with
  | nil => intro A g _ _ d hc ha e _; exact ⟨g, rfl, d, hc, ha, by simpa using e⟩
  | cons s l ih =>
    intro A g hA hl d hc ha e hn
    obtain ⟨A', a, rfl⟩ := exists_concat hA
    have hsF := hl s (by simp)
    have hs : s ∉ (g.core.route r).stops := by
      rw [e]; intro hm
      exact (List.disjoint_of_nodup_append hn) hm (by simp)
    have e1 : currentStop r g = (.ok a, g) := by
      unfold currentStop
      have h1 : routeStops r g = (.ok (A' ++ [a] ++ [f]), g) := by simp [routeStops, e]
      rw [Py.bind_ok h1]
      simp [Py.unwrap]
    set g1 := g.setStop s { g.core.stop s with previous := some a } with hg1
    have d1 : Draft h0 h1 r F g1 := d.link hsF.1 (some a)
    obtain ⟨hc1, ha1⟩ := link_outside (q := some a) hc ha hs
    have er : g1.core.route r = g.core.route r := rfl
    have es : g1.core.stop s = { g.core.stop s with previous := some a } := by simp [hg1, Heap.setStop]
    have e2 : (g1.core.route r).stops = A' ++ a :: f :: [] := by rw [er, e]; simp
    have e3 : (g1.core.route r).stops = (A' ++ [a]) ++ f :: [] := by rw [er, e]
    have hdis : ∀ p ∈ (g1.core.stop s).pickups, p ∉ (g1.core.stop s).deliveries := by
      obtain ⟨q, hq⟩ := d1.stop s
      rw [hq]
      intro p hp hd
      obtain ⟨_, _, v, h3, h4, _⟩ := hw.pick' hsF.2 hp
      have h5 := (hw.drop' hsF.2 hd).2.1
      rw [h4] at h5
      cases h5
      have := h3.nodup hw.nodup
      simp at this
    have r1 := insertStop_run (s := s) hc1.nodup e2 (by rw [es]) hdis
    obtain ⟨hc2, ha2⟩ := afterInsert_ok (E := E) (s := s) hc1 ha1 e3 (by rw [es]; simp) (by rw [er]; exact hs)
      (by rw [d1.nStop]; exact hw.alloc s hsF.2) (by
        obtain ⟨q, hq⟩ := d1.stop s
        rw [hq, d1.vehicle]; exact hw.vehicle s hsF.2)
    have hn2 : (A' ++ [a] ++ [s] ++ [f] ++ l).Nodup := by
      refine (List.Perm.nodup_iff ?_).1 hn
      rw [List.append_assoc, List.append_assoc (A' ++ [a] ++ [s])]
      simp only [List.append_assoc]
      refine List.Perm.append_left _ (List.Perm.append_left _ ?_)
      simpa using List.Perm.swap s f l
    obtain ⟨g', e4, d4, hc4, ha4, es4⟩ := ih (A := A' ++ [a] ++ [s]) (g := afterInsert g1 r s f (A' ++ [a]) [])
      (by simp) (fun x hx => hl x (by simp [hx])) (d1.insert (by simp [hsF.1, hf])) hc2 ha2 (by simp) hn2
    refine ⟨g', ?_, d4, hc4, ha4, by rw [es4]; simp⟩
    rw [reinsert, Py.bind_ok e1]
    simp only [Py.modify_bind]
    rw [Py.bind_ok r1, e4]

/-- Order in a list with a reversed segment. -/
theorem before_reversed {A M C : List Nat} {u v : Nat} (h : [u, v].Sublist (A ++ M ++ C)) (hn : ¬ (u ∈ M ∧ v ∈ M)) :
    [u, v].Sublist (A ++ M.reverse ++ C) := by
  have mem1 : ∀ {x : Nat} {l : List Nat}, [x].Sublist l ↔ x ∈ l := List.singleton_sublist
  rw [List.sublist_append_iff] at h
  obtain ⟨l1, l2, e, s1, s2⟩ := h
  have key : ∀ {l : List Nat}, l.Sublist (A ++ M) → (l = [] ∨ l = [u] ∨ l = [u, v]) → l.Sublist (A ++ M.reverse) := by
    intro l hs hl
    rcases hl with rfl | rfl | rfl
    · simp
    · rw [mem1] at hs ⊢
      simpa using hs
    · rw [List.sublist_append_iff] at hs
      obtain ⟨a1, a2, e1, t1, t2⟩ := hs
      match a1, e1 with
      | [], e1 =>
        simp only [List.nil_append] at e1
        subst e1
        exact absurd ⟨t2.subset (by simp), t2.subset (by simp)⟩ hn
      | [x], e1 =>
        simp only [List.cons_append, List.nil_append, List.cons.injEq] at e1
        obtain ⟨rfl, rfl⟩ := e1
        have : [v].Sublist M.reverse := by rw [mem1] at t2 ⊢; simpa using t2
        exact List.Sublist.append t1 this
      | [x, y], e1 =>
        simp only [List.cons_append, List.nil_append, List.cons.injEq, List.nil_eq] at e1
        obtain ⟨rfl, rfl, rfl⟩ := e1
        exact t1.trans (List.sublist_append_left _ _)
      | x :: y :: z :: t, e1 => simp at e1
  match l1, e with
  | [], e =>
    simp only [List.nil_append] at e
    subst e
    exact s2.trans (List.sublist_append_right _ _)
  | [x], e =>
    simp only [List.cons_append, List.nil_append, List.cons.injEq] at e
    obtain ⟨rfl, rfl⟩ := e
    exact List.Sublist.append (key s1 (.inr (.inl rfl))) s2
  | [x, y], e =>
    simp only [List.cons_append, List.nil_append, List.cons.injEq, List.nil_eq] at e
    obtain ⟨rfl, rfl, rfl⟩ := e
    exact (key s1 (.inr (.inr rfl))).trans (List.sublist_append_left _ _)
  | x :: y :: z :: t, e => simp at e

theorem reversed_map {α β : Type} (f : α → β) (i j : Nat) (l : List α) : (reversed i j l).map f = reversed i j (l.map f) := by
  unfold reversed
  simp only [List.map_append, List.map_reverse, List.map_drop, List.map_take, List.map_dropLast, List.length_map]

theorem not_torn {c c' : Core} {r r' i j : Nat} (hw : WellFormed c r) (hi : itinerary c' r' = itinerary c r)
    (hb : twoOptBlocked c (((c.route r).stops.take (j + 1)).drop i) = false) {u v p : Nat}
    (hu : u ∈ ((c'.route r').stops.take (j + 1)).drop i) (hv : v ∈ ((c'.route r').stops.take (j + 1)).drop i)
    (hpu : p ∈ (c'.stop u).pickups) (hpv : p ∈ (c'.stop v).deliveries) : False := by
  have hseg : (((c'.route r').stops.take (j + 1)).drop i).map (visitOf c') =
      (((c.route r).stops.take (j + 1)).drop i).map (visitOf c) := by
    unfold itinerary at hi
    rw [List.map_drop, List.map_take, hi, List.map_drop, List.map_take]
  have h1 : visitOf c' u ∈ (((c.route r).stops.take (j + 1)).drop i).map (visitOf c) := by
    rw [← hseg]; exact List.mem_map_of_mem hu
  have h2 : visitOf c' v ∈ (((c.route r).stops.take (j + 1)).drop i).map (visitOf c) := by
    rw [← hseg]; exact List.mem_map_of_mem hv
  obtain ⟨a, ha, ea⟩ := List.mem_map.1 h1
  obtain ⟨b, hb', eb⟩ := List.mem_map.1 h2
  have sub : ∀ x ∈ ((c.route r).stops.take (j + 1)).drop i, x ∈ (c.route r).stops := fun x hx =>
    List.mem_of_mem_take (List.mem_of_mem_drop hx)
  have t1 : (c'.pt p).trip ∈ (visitOf c a).picks := by
    rw [ea]; exact List.mem_map_of_mem (f := fun p => (c'.pt p).trip) hpu
  have t2 : (c'.pt p).trip ∈ (visitOf c b).drops := by
    rw [eb]; exact List.mem_map_of_mem (f := fun p => (c'.pt p).trip) hpv
  obtain ⟨p1, hp1, e1⟩ := List.mem_map.1 t1
  obtain ⟨p2, hp2, e2⟩ := List.mem_map.1 t2
  have := hw.trip_inj (List.mem_flatMap.2 ⟨a, sub a ha, hp1⟩)
    (hw.deliveries_sub_pickups p2 (List.mem_flatMap.2 ⟨b, sub b hb', hp2⟩)) (by rw [e1, e2])
  subst this
  unfold twoOptBlocked at hb
  rw [List.any_eq_false] at hb
  have := hb b hb'
  rw [Bool.not_eq_true, List.any_eq_false] at this
  have := this p1 hp2
  simp only [List.contains_eq_mem, decide_eq_true_eq, List.mem_flatMap, not_exists, not_and] at this
  exact this a ha hp1

/-- A two-opt candidate on a route of a family. -/
structure Reversal (E : Env) (md : Mode) (R : Nat → Prop) (h h' : Heap) (r i j r' : Nat) : Prop where
  below : Below h h'
  new : r' = h.core.nRoute
  nRoute : h'.core.nRoute = h.core.nRoute + 1
  inv : Inv E md (Plus R r') h'
  itinerary : itinerary h'.core r' = reversed i j (itinerary h.core r)
  vehicle : (h'.core.route r').vehicle = (h.core.route r).vehicle
  rfeas : h'.rfeas r' = none
  shared : ∀ p ∈ routePlannedTrips h'.core r', p ∈ routePlannedTrips h.core r ∨
    h'.pfeas p = none ∧ (∀ u, (h'.core.pt p).pickup = some u → h'.sfeas u = none) ∧
      ∀ d, (h'.core.pt p).delivery = some d → h'.sfeas d = none

theorem twoOptCandidate_run {md : Mode} {R : Nat → Prop} {h : Heap} {r i j : Nat} (inv : Inv E md R h) (hr : R r) (hi : 1 ≤ i)
    (hn : i + 2 ≤ (h.core.route r).stops.length)
    (hb : twoOptBlocked h.core (((h.core.route r).stops.take (j + 1)).drop i) = false) :
    ∃ r' h', twoOptCandidate E r i j h = (.ok r', h') ∧ Reversal E md R h h' r i j r' := by
  have hw := inv.ok.wf r hr
  obtain ⟨r', idx, h1, pre, suf, fresh, e1, c, hpl, hp2, hpi⟩ := cloneRouteIdx_run (E := E) hw (i - 1)
  have hlen2 : pre.length = 0 ∨ 2 ≤ pre.length := by omega
  have hpi' : pre.length ≤ i := by omega
  set L := (h1.core.route r').stops with hL
  have hLlen : L.length = (h.core.route r).stops.length := by
    rw [hL, c.stops, c.old, List.length_append, List.length_append, c.len]
  obtain ⟨L', z, hz⟩ := exists_concat (l := L) (by intro h0; rw [h0] at hLlen; simp at hLlen; omega)
  have hL'len : L'.length + 1 = L.length := by rw [hz]; simp
  have hn' : L'.length + 1 ≥ i + 2 := by omega
  set A := L'.take i with hA
  set M := (L'.take (j + 1)).drop i with hM
  set B := (L'.drop i).drop (j + 1 - i) with hB
  have hold : L'.drop i = M ++ B := by
    rw [hM, hB, List.drop_take]
    exact (List.take_append_drop (j + 1 - i) (L'.drop i)).symm
  have hMt : (L'.drop i).take (j + 1 - i) = M := by rw [hM, List.drop_take]
  have hLeq : L = A ++ (M ++ B ++ [z]) := by
    rw [hz, ← hold, hA, ← List.append_assoc, List.take_append_drop]
  have hAlen : A.length = i := by rw [hA, List.length_take]; omega
  have hAne : A ≠ [] := by intro h0; rw [h0] at hAlen; simp at hAlen; omega
  have hfr : ∀ x ∈ M ++ B ++ [z], x ∈ fresh := by
    have : M ++ B ++ [z] = L.drop i := by rw [hLeq, ← hAlen, List.drop_left]
    rw [this, hL, c.stops, List.drop_append, List.drop_eq_nil_of_le hpi', List.nil_append]
    exact fun x hx => List.mem_of_mem_drop hx
  have hLn : (A ++ (M ++ B ++ [z])).Nodup := by rw [← hLeq]; exact c.wf.nodup
  have hLm : ∀ x ∈ A ++ (M ++ B ++ [z]), x ∈ (h1.core.route r').stops := by rw [← hLeq]; exact fun x hx => hx
  obtain ⟨g1, e2, d1, hc1, ha1, es1⟩ := removeMany_run (E := E) (B := [z]) hAne (by simp)
    (fun x hx => hfr x (List.mem_append_right _ hx)) (M ++ B) (fun x hx => hfr x (List.mem_append_left _ hx)) c.draft
    c.wf.toChained (c.agree hw (inv.agree hr)) (by rw [← hL, hLeq])
  obtain ⟨g2, e3, d2, hc2, ha2, es2⟩ := reinsert_run (E := E) c.wf (hfr z (by simp)) M.reverse hAne
    (fun x hx => ⟨hfr x (by simp at hx ⊢; tauto), hLm x (by simp at hx ⊢; tauto)⟩) d1 hc1 ha1 es1 (by
      have : (A ++ [z] ++ M.reverse).Subperm (A ++ (M ++ B ++ [z])) := by
        rw [List.append_assoc]
        refine (List.subperm_append_left A).2 ?_
        have : ([z] ++ M.reverse).Perm (M ++ [z]) := (List.perm_append_comm).trans ((List.reverse_perm M).append_right _)
        refine this.subperm.trans ?_
        rw [List.append_assoc]
        exact ((List.Sublist.refl M).append (List.sublist_append_right B [z])).subperm
      obtain ⟨l, hl1, hl2⟩ := this
      exact (hl1.nodup_iff).1 (hl2.nodup hLn))
  obtain ⟨g3, e4, d3, hc3, ha3, es3⟩ := reinsert_run (E := E) c.wf (hfr z (by simp)) B (A := A ++ M.reverse) (by simp [hAne])
    (fun x hx => ⟨hfr x (by simp [hx]), hLm x (by simp [hx])⟩) d2 hc2 ha2 es2 (by
      refine (List.Perm.nodup_iff ?_).1 hLn
      rw [List.append_assoc, List.append_assoc, List.append_assoc]
      refine List.Perm.append_left _ ?_
      exact (List.Perm.append_left M (List.perm_append_comm)).trans ((List.reverse_perm M).symm.append_right _))
  have hrun : twoOptCandidate E r i j h = (.ok r', g3) := by
    unfold twoOptCandidate
    rw [Py.bind_ok (cloneRoute_eq e1)]
    have h1' : routeStops r' h1 = (.ok L, h1) := by simp [routeStops, hL]
    rw [Py.bind_ok h1']
    have hcount : L.length - 1 - i = (M ++ B).length := by rw [← hold, List.length_drop]; omega
    rw [hcount]
    rw [hAlen] at e2
    rw [Py.bind_ok e2]
    have q1 : (M ++ B).take (j + 1 - i) = M := by rw [← hold]; exact hMt
    have q2 : (M ++ B).drop (j + 1 - i) = B := by rw [← hold]
    rw [q1, q2, Py.bind_ok e3, Py.bind_ok e4]; rfl
  have hst : (g3.core.route r').stops = reversed i j L := by
    rw [es3]
    unfold reversed
    rw [hz, List.dropLast_concat, List.length_append, List.length_singleton, Nat.add_sub_cancel, List.drop_left,
      List.take_append_of_le_length (by omega)]
    simp only [hA, hM, hB, List.append_assoc]
  have hsub : ∀ x ∈ (g3.core.route r').stops, x ∈ (h1.core.route r').stops := by
    rw [es3]; intro x hx
    apply hLm
    simp only [List.mem_append, List.mem_reverse] at hx ⊢
    tauto
  have hwf : WellFormed g3.core r' := by
    refine d3.wf c.wf hc3 hsub ?_ ?_ ?_
    · rw [es3]; simp; omega
    · rw [es3, ← hL, hLeq]
      cases hA' : A with
      | nil => exact absurd hA' hAne
      | cons x t => simp
    · intro u v p hs hpu hpv _
      rw [es3]
      rw [← hL, hLeq] at hs
      have := before_reversed (A := A) (M := M) (C := B ++ [z]) (u := u) (v := v) (by simpa using hs) ?_
      · simpa using this
      · rintro ⟨hu, hv⟩
        have inseg : ∀ x ∈ M, x ∈ (L.take (j + 1)).drop i := by
          intro x hx
          rw [hz, List.take_append, List.drop_append]
          exact List.mem_append_left _ hx
        exact not_torn hw (c.itinerary hw) hb (inseg u hu) (inseg v hv) hpu hpv
  obtain ⟨F', hF1, hF2⟩ : ∃ F', (g3.core.route r').stops = pre ++ F' ∧ ∀ x ∈ F', x ∈ fresh := by
    obtain ⟨t, ht⟩ : ∃ t, A = pre ++ t := by
      refine ⟨fresh.take (i - pre.length), ?_⟩
      have : A = L.take i := by rw [hLeq, ← hAlen, List.take_left]
      rw [this, hL, c.stops, List.take_append, List.take_of_length_le hpi']
    refine ⟨t ++ M.reverse ++ B ++ [z], by rw [es3, ht]; simp, ?_⟩
    intro x hx
    have hxt : x ∈ t → x ∈ fresh := by
      intro hxt
      have : A = L.take i := by rw [hLeq, ← hAlen, List.take_left]
      rw [hL, c.stops, List.take_append, List.take_of_length_le hpi'] at this
      have := List.append_cancel_left (ht.symm.trans this)
      rw [this] at hxt
      exact List.mem_of_mem_take hxt
    simp only [List.mem_append, List.mem_reverse] at hx
    rcases hx with ((hx | hx) | hx) | hx
    · exact hxt hx
    · exact hfr x (by simp [hx])
    · exact hfr x (by simp [hx])
    · exact hfr x (by simp at hx; simp [hx])
  refine ⟨r', g3, hrun, d3.below, c.new, by rw [d3.nRoute, c.nRoute], ?_, ?_, by rw [d3.vehicle, c.vehicle], d3.rfeas, ?_⟩
  · exact d3.inv c inv hr hlen2 hF1 hF2 hwf
  · unfold Jinete.itinerary
    rw [hst, show (reversed i j L).map (visitOf g3.core) = (reversed i j L).map (visitOf h1.core) from
      List.map_congr_left fun x _ => d3.visit x, reversed_map]
    have := c.itinerary hw
    unfold Jinete.itinerary at this
    rw [hL, this]
  · intro p hp
    obtain ⟨s, hs, hps⟩ := List.mem_flatMap.1 hp
    rw [hF1] at hs
    rcases List.mem_append.1 hs with hs | hs
    · left
      have hs' : s ∈ (h.core.route r).stops := by rw [c.old]; exact List.mem_append_left _ hs
      refine List.mem_flatMap.2 ⟨s, hs', ?_⟩
      rw [d3.below.stop s (hw.alloc s hs')] at hps
      exact hps
    · right
      obtain ⟨a, b, e⟩ := List.append_of_mem hs
      obtain ⟨_, k2, d, k3, k4, _⟩ := hwf.pick (pre ++ a) s b (by rw [hF1, e]; simp) p hps
      have hd : d ∈ F' := by rw [e]; simp [k3]
      refine ⟨(d3.freshPt s (hF2 s hs) p (List.mem_append_left _ hps)).2, ?_, ?_⟩
      · intro u hu
        rw [k2] at hu; cases hu
        exact (d3.freshStop s (hF2 s hs)).2.2
      · intro u hu
        rw [k4] at hu; cases hu
        exact (d3.freshStop d (hF2 d hd)).2.2

theorem PtVerdict.self (c : Core) (p : Nat) : PtVerdict E .exact c p (tripV E c p) := by
  refine ⟨fun _ h => ?_, fun _ => rfl⟩
  unfold tripV at h
  cases hu : (c.pt p).pickup with
  | none => rw [hu] at h; simp at h
  | some u =>
    cases hd : (c.pt p).delivery with
    | none => rw [hu, hd] at h; simp at h
    | some d =>
      rw [hu, hd] at h
      simp only [Bool.and_eq_true] at h
      exact ⟨u, d, rfl, rfl, stopV_load h.1.1, stopV_load h.1.2, h.2⟩

theorem SameT.tripV {R : Nat → Prop} {c c' : Core} (a : SameT E R c c') {q p : Nat} (hq : R q) (hw : WellFormed c q)
    (hp : p ∈ routePlannedTrips c q) : Jinete.tripV E c' p = Jinete.tripV E c p :=
  ((a.ptVerdict hq hw hp (PtVerdict.self c p)).full rfl).symm

/-- Accepted candidates of a feasible route are feasible, whatever is memoised. -/
theorem Reversal.feasible {md : Mode} {R : Nat → Prop} {h h' : Heap} {r i j r' : Nat} (v : Reversal E md R h h' r i j r')
    (hw : WellFormed h.core r) (hf : FeasibleItinerary E (E.vehicle (h.core.route r).vehicle) (Jinete.itinerary h.core r))
    (he : effR E h' r' = true) :
    FeasibleItinerary E (E.vehicle (h'.core.route r').vehicle) (Jinete.itinerary h'.core r') := by
  rw [← freshV_iff (v.inv.ok.wf r' Plus.right)]
  rw [← freshV_iff hw, freshV, Bool.and_eq_true, List.all_eq_true] at hf
  unfold effR at he
  rw [v.rfeas, Option.getD_none, routeV, Bool.and_eq_true, List.all_eq_true] at he
  rw [freshV, Bool.and_eq_true, List.all_eq_true]
  refine ⟨he.1, fun p hp => ?_⟩
  rcases v.shared p hp with h0 | ⟨h1, h2, h3⟩
  · have s : SameCore (· = r) h.core h'.core := (v.below.keeps (by rintro _ rfl; exact hw)).core
    have t := hf.2 p h0
    rw [(SameT.of_core s (by rintro _ rfl; exact hw)).tripV rfl hw h0]
    exact t
  · have := he.2 p hp
    unfold effP ptV at this
    rw [h1, Option.getD_none] at this
    unfold tripV
    cases hu : (h'.core.pt p).pickup with
    | none => rw [hu] at this; simp at this
    | some u =>
      cases hd : (h'.core.pt p).delivery with
      | none => rw [hu, hd] at this; simp at this
      | some d =>
        rw [hu, hd] at this
        simp only [effS, h2 u hu, h3 d hd, Option.getD_none] at this
        exact this

theorem reversed_perm {α : Type} {i : Nat} (j : Nat) {l : List α} (h : i + 2 ≤ l.length) : (reversed i j l).Perm l := by
  obtain ⟨L, z, rfl⟩ : ∃ L z, l = L ++ [z] := by
    rcases List.eq_nil_or_concat l with h0 | ⟨q, b, h0⟩
    · rw [h0] at h; simp at h
    · exact ⟨q, b, by simpa using h0⟩
  have hi : i ≤ L.length := by simp at h; omega
  unfold reversed
  rw [List.dropLast_concat, List.length_append, List.length_singleton, Nat.add_sub_cancel, List.drop_left,
    List.take_append_of_le_length hi, List.append_assoc]
  have : (L.drop i) = (L.take (j + 1)).drop i ++ (L.drop i).drop (j + 1 - i) := by
    rw [List.drop_take]
    exact (List.take_append_drop (j + 1 - i) (L.drop i)).symm
  conv_rhs => rw [← List.take_append_drop i L, this, List.append_assoc, List.append_assoc]
  exact List.Perm.append_left _ ((List.reverse_perm _).append_right _)

/-! ## A pass over the pairs of a route -/

/-- Route `q` in `c'` is a reordering of route `r` in `c` worth more than `cost`; what can be said about its feasibility
depends on the mode. -/
structure Reordered (E : Env) (k : Objective) (md : Mode) (c : Core) (r : Nat) (cost : List ℚ) (c' : Core) (q : Nat) : Prop where
  vehicle : (c'.route q).vehicle = (c.route r).vehicle
  shape : ∃ i j, 1 ≤ i ∧ i < j ∧ i + 2 ≤ (itinerary c r).length ∧ itinerary c' q = reversed i j (itinerary c r)
  value : cost < routeValue E (E.vehicle (c'.route q).vehicle) (itinerary c' q) k
  loose : md ≠ .any → LooselyFeasible E (E.vehicle (c'.route q).vehicle) (itinerary c' q)
  exact : md = .exact → FeasibleItinerary E (E.vehicle (c'.route q).vehicle) (itinerary c' q)
  feasible : FeasibleItinerary E (E.vehicle (c.route r).vehicle) (itinerary c r) →
    FeasibleItinerary E (E.vehicle (c'.route q).vehicle) (itinerary c' q)

theorem Reordered.later {k : Objective} {md : Mode} {c c' c'' : Core} {r q : Nat} {cost : List ℚ}
    (i : Reordered E k md c r cost c' q) {R : Nat → Prop} (s : SameCore R c' c'') (hq : R q) :
    Reordered E k md c r cost c'' q := by
  obtain ⟨h1, h2, h3, h4, h5, h6⟩ := i
  have e := s.route q hq
  have e2 := s.itinerary hq
  exact ⟨by rw [e]; exact h1, by rw [e2]; exact h2, by rw [e, e2]; exact h3, by rw [e, e2]; exact h4, by rw [e, e2]; exact h5,
    by rw [e, e2]; exact h6⟩

theorem Reordered.earlier {k : Objective} {md : Mode} {c c' c'' : Core} {r q : Nat} {cost cost' : List ℚ}
    (i : Reordered E k md c' r cost' c'' q) {R : Nat → Prop} (s : SameCore R c c') (hr : R r) (hc : cost ≤ cost') :
    Reordered E k md c r cost c'' q := by
  obtain ⟨h1, h2, h3, h4, h5, h6⟩ := i
  rw [s.route r hr] at h1 h6
  rw [s.itinerary hr] at h2 h6
  exact ⟨h1, h2, lt_of_le_of_lt hc h3, h4, h5, h6⟩

theorem Upto.trans {R : Nat → Prop} {h h1 h2 : Heap} {q : Nat} (hq : Upto R h h2 q) : Upto (Upto R h h1) h1 h2 q := by
  rcases hq with hq | hq
  · exact .inl (.inl hq)
  · by_cases h0 : q < h1.core.nRoute
    · exact .inl (.inr ⟨hq.1, h0⟩)
    · exact .inr ⟨by omega, hq.2⟩

theorem routeValue_run {k : Objective} {md : Mode} {R : Nat → Prop} {h : Heap} (inv : Inv E md R h) {q : Nat} (hq : R q) :
    ∃ h', k.value E (.route q) h = (.ok (routeValue E (E.vehicle (h.core.route q).vehicle) (itinerary h.core q) k), h') ∧
      GrowsV E h h' := by
  obtain ⟨h', e, g⟩ := (inv.ok.wf q hq).routeValue_reads (E := E) k h rfl (inv.ok.agree q hq)
  exact ⟨h', e, g.toV⟩

theorem twoOptPairs_run {k : Objective} {md : Mode} (hE : EnvOK E) {r : Nat} :
    ∀ (ps : List (Nat × Nat)) (cost : List ℚ) (over : List Nat) {R : Nat → Prop} {h : Heap}, Inv E md R h → R r →
      (∀ x ∈ ps, 1 ≤ x.1 ∧ x.1 < x.2 ∧ x.2 + 2 ≤ (h.core.route r).stops.length) →
      ∃ news h', twoOptPairs E k r ps cost over h = (.ok (over ++ news), h') ∧ Inv E md (Upto R h h') h' ∧
        SameCore R h.core h'.core ∧ news.Nodup ∧
        ∀ q ∈ news, h.core.nRoute ≤ q ∧ q < h'.core.nRoute ∧ Reordered E k md h.core r cost h'.core q := by
  intro ps
  induction ps with
  | nil =>
    intro cost over R h inv hr _
    refine ⟨[], h, by simp [twoOptPairs], inv.subset ?_, SameCore.refl _, List.nodup_nil, by simp⟩
    rintro q (hq | hq)
    · exact hq
    · omega
  | cons x ps ih =>
    intro cost over R h inv hr hps
    obtain ⟨i, m⟩ := x
    have hx := hps (i, m) (by simp)
    simp only at hx
    rw [twoOptPairs]
    simp only [Py.read_bind]
    by_cases hb : twoOptBlocked h.core (((h.core.route r).stops.take (m + 1 + 1)).drop i) = true
    · rw [if_pos hb]
      exact ih cost over inv hr fun y hy => hps y (by simp [hy])
    · rw [if_neg hb]
      obtain ⟨r', h1, e1, v⟩ := twoOptCandidate_run (E := E) inv hr hx.1 (by omega) (Bool.eq_false_iff.2 hb)
      rw [Py.bind_ok e1]
      have hr' : Plus R r' r' := .inr rfl
      obtain ⟨h2, e2, g2, _⟩ := routeFeasible_memo hE (v.inv.ok.wf r' hr') rfl (v.inv.ok.agree r' hr')
      rw [Py.bind_ok e2]
      have inv2 := v.inv.growsV g2
      have s1 : SameCore R h.core h1.core := (v.below.keeps inv.ok.wf).core
      have s2 : SameCore R h.core h2.core := s1.trans (SameCore.of_eq g2.core)
      have n2 : h2.core.nRoute = h.core.nRoute + 1 := by rw [g2.core, v.nRoute]
      have hps' : ∀ g : Heap, SameCore R h.core g.core → ∀ y ∈ ps, 1 ≤ y.1 ∧ y.1 < y.2 ∧ y.2 + 2 ≤ (g.core.route r).stops.length := by
        intro g sg y hy
        rw [sg.route r hr]
        exact hps y (by simp [hy])
      -- going on without the candidate
      have skip : ∀ g : Heap, Inv E md (Plus R r') g → SameCore R h.core g.core → g.core.nRoute = h.core.nRoute + 1 →
          ∃ news h', twoOptPairs E k r ps cost over g = (.ok (over ++ news), h') ∧ Inv E md (Upto R h h') h' ∧
            SameCore R h.core h'.core ∧ news.Nodup ∧
            ∀ q ∈ news, h.core.nRoute ≤ q ∧ q < h'.core.nRoute ∧ Reordered E k md h.core r cost h'.core q := by
        intro g ig sg ng
        obtain ⟨news, h', e', i', s', nd, hn⟩ := ih cost over ig (Plus.left hr) (hps' g sg)
        have hnr := s'.nRoute
        have sR : SameCore R g.core h'.core := s'.subset fun q hq => Plus.left hq
        refine ⟨news, h', e', i'.subset ?_, sg.trans sR, nd, ?_⟩
        · rintro q (hq | hq)
          · exact .inl (Plus.left hq)
          · by_cases h0 : q = r'
            · exact .inl (.inr h0)
            · exact .inr ⟨by rw [ng]; have := v.new; omega, hq.2⟩
        · intro q hq
          obtain ⟨a, b, c⟩ := hn q hq
          exact ⟨by omega, b, c.earlier sg hr (le_refl _)⟩
      by_cases hf : effR E h1 r' = true
      · rw [hf, if_pos rfl]
        obtain ⟨h3, e3, g3⟩ := routeValue_run (k := k) inv2 hr'
        rw [Py.bind_ok e3]
        have inv3 := inv2.growsV g3
        have s3 : SameCore R h.core h3.core := s2.trans (SameCore.of_eq g3.core)
        have n3 : h3.core.nRoute = h.core.nRoute + 1 := by rw [g3.core, n2]
        have c3 : h3.core = h1.core := by rw [g3.core, g2.core]
        by_cases hc : cost < routeValue E (E.vehicle (h2.core.route r').vehicle) (itinerary h2.core r') k
        · rw [if_pos hc]
          have hreo : Reordered E k md h.core r cost h3.core r' := by
            refine ⟨by rw [c3]; exact v.vehicle, ⟨i, m + 1, hx.1, by omega, ?_, by rw [c3]; exact v.itinerary⟩,
              by rw [g3.core]; exact hc, ?_, ?_, fun h0 => by rw [c3]; exact v.feasible (inv.ok.wf r hr) h0 hf⟩
            · unfold itinerary; rw [List.length_map]; omega
            · intro hm
              have := v.inv.vd.effR hr' (v.inv.ok.wf r' hr')
              rw [hf] at this
              rw [c3]
              exact looselyFeasible_of (v.inv.ok.wf r' hr') hm this
            · intro hm
              rw [c3]
              unfold effR at hf
              rw [v.rfeas, Option.getD_none, routeV, Bool.and_eq_true, List.all_eq_true] at hf
              refine feasible_of (v.inv.ok.wf r' hr') hf.1 fun p hp => ?_
              have := v.inv.vd.effP hr' (v.inv.ok.wf r' hr') hp
              rw [hf.2 p hp, hm] at this
              exact this
          obtain ⟨news, h', e', i', s', nd, hn⟩ := ih (routeValue E (E.vehicle (h2.core.route r').vehicle) (itinerary h2.core r') k)
            (over ++ [r']) inv3 (Plus.left hr) (hps' h3 s3)
          have hnr := s'.nRoute
          have sR : SameCore R h3.core h'.core := s'.subset fun q hq => Plus.left hq
          refine ⟨r' :: news, h', by rw [e']; simp, i'.subset ?_, s3.trans sR, ?_, ?_⟩
          · rintro q (hq | hq)
            · exact .inl (Plus.left hq)
            · by_cases h0 : q = r'
              · exact .inl (.inr h0)
              · exact .inr ⟨by rw [n3]; have := v.new; omega, hq.2⟩
          · refine List.nodup_cons.2 ⟨fun hm => ?_, nd⟩
            have := (hn r' hm).1
            have := v.new
            omega
          · intro q hq
            rcases List.mem_cons.1 hq with rfl | hq
            · exact ⟨by rw [v.new], by have := v.new; omega, hreo.later s' hr'⟩
            · obtain ⟨a, b, c⟩ := hn q hq
              exact ⟨by omega, b, c.earlier s3 hr (le_of_lt hc)⟩
        · rw [if_neg hc]
          exact skip h3 inv3 s3 n3
      · rw [if_neg hf]
        exact skip h2 inv2 s2 n2

theorem combinations2_lt {n : Nat} {x : Nat × Nat} (h : x ∈ combinations2 n) : x.1 < x.2 ∧ x.2 < n := by
  unfold combinations2 at h
  simp only [List.mem_flatMap, List.mem_map, List.mem_range, List.mem_filter] at h
  aesop

theorem innerPairs_mem {n : Nat} {x : Nat × Nat} (h : x ∈ innerPairs n) : 1 ≤ x.1 ∧ x.1 < x.2 ∧ x.2 + 2 ≤ n := by
  obtain ⟨y, hy, rfl⟩ := List.mem_map.1 h
  have := combinations2_lt hy
  simp only
  omega

theorem twoOptRoutes_run {k : Objective} {md : Mode} (hE : EnvOK E) :
    ∀ (rs over : List Nat) {R : Nat → Prop} {h : Heap}, Inv E md R h → (∀ r ∈ rs, R r) →
      ∃ news h', twoOptRoutes E k rs over h = (.ok (over ++ news), h') ∧ Inv E md (Upto R h h') h' ∧
        SameCore R h.core h'.core ∧ news.Nodup ∧
        ∀ q ∈ news, h.core.nRoute ≤ q ∧ q < h'.core.nRoute ∧ ∃ r ∈ rs, Reordered E k md h.core r
          (routeValue E (E.vehicle (h.core.route r).vehicle) (itinerary h.core r) k) h'.core q := by
  intro rs
  induction rs with
  | nil =>
    intro over R h inv _
    refine ⟨[], h, by simp [twoOptRoutes], inv.subset ?_, SameCore.refl _, List.nodup_nil, by simp⟩
    rintro q (hq | hq)
    · exact hq
    · omega
  | cons r rs ih =>
    intro over R h inv hrs
    have hr := hrs r (by simp)
    obtain ⟨h1, e1, g1⟩ := routeValue_run (k := k) inv hr
    have inv1 := inv.growsV g1
    have es : routeStops r h1 = (.ok (h1.core.route r).stops, h1) := by simp [routeStops]
    obtain ⟨news, h2, e2, i2, s2, nd2, hn2⟩ := twoOptPairs_run (k := k) hE (innerPairs (h1.core.route r).stops.length)
      (routeValue E (E.vehicle (h.core.route r).vehicle) (itinerary h.core r) k) over inv1 hr (fun x hx => innerPairs_mem hx)
    have s02 : SameCore R h.core h2.core := (SameCore.of_eq g1.core).trans s2
    obtain ⟨news', h3, e3, i3, s3, nd3, hn3⟩ := ih (over ++ news) i2 (fun q hq => .inl (hrs q (by simp [hq])))
    have n1 : h1.core.nRoute = h.core.nRoute := by rw [g1.core]
    have n2 := s2.nRoute
    have n3 := s3.nRoute
    refine ⟨news ++ news', h3, ?_, i3.subset ?_, s02.trans (s3.subset fun q hq => .inl hq), ?_, ?_⟩
    · rw [twoOptRoutes, Py.bind_ok e1, Py.bind_ok es, Py.bind_ok e2, e3, List.append_assoc]
    · intro q hq
      refine Upto.trans ?_
      rcases hq with hq | hq
      · exact .inl hq
      · exact .inr ⟨by omega, hq.2⟩
    · rw [List.nodup_append]
      refine ⟨nd2, nd3, ?_⟩
      rintro a ha b hb rfl
      have := (hn2 a ha).2.1
      have := (hn3 a hb).1
      omega
    · intro q hq
      rcases List.mem_append.1 hq with hq | hq
      · obtain ⟨a, b, c⟩ := hn2 q hq
        refine ⟨by omega, by omega, r, by simp, ?_⟩
        rw [g1.core] at c
        exact c.later s3 (.inr ⟨by omega, b⟩)
      · obtain ⟨a, b, r2, hr2, c⟩ := hn3 q hq
        refine ⟨by omega, b, r2, by simp [hr2], ?_⟩
        have hR2 := hrs r2 (by simp [hr2])
        rw [s02.route r2 hR2, s02.itinerary hR2] at c
        exact c.earlier s02 hR2 (le_refl _)

end Jinete
