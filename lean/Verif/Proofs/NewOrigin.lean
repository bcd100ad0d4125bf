import Verif.Proofs.LocalStep
import Verif.Props.Feasible
import Verif.Spec.LocalSearch

/-!
# Reallocation: the origin route without the trip
-/

set_option autoImplicit false

namespace Jinete

variable {E : Env}

/-- What the copy of route `o` without trip `t` is like; `b` is the verdict on it. -/
structure NewOrigin (E : Env) (md : Mode) (R : Nat → Prop) (h h' : Heap) (o t r' : Nat) (b : Bool) : Prop where
  inv : Inv E md (Plus R r') h'
  new : r' = h.core.nRoute
  nRoute : h'.core.nRoute = h.core.nRoute + 1
  same : SameCore R h.core h'.core
  duties : duties h'.core r' = withoutTrip t (duties h.core o)
  vehicle : (h'.core.route r').vehicle = (h.core.route o).vehicle
  fresh : ∀ s ∈ (h'.core.route r').stops, h.core.nStop ≤ s
  verdict : b = true ↔ FeasibleItinerary E (E.vehicle (h'.core.route r').vehicle) (itinerary h'.core r')
  visits : itinerary h'.core r' = (itinerary h.core o).filter fun v => decide (t ∉ v.picks ∧ t ∉ v.drops)

theorem NewOrigin.feasible {md : Mode} {R : Nat → Prop} {h h' : Heap} {o t r' : Nat} {b : Bool} (no : NewOrigin E md R h h' o t r' b) :
    b = true → FeasibleItinerary E (E.vehicle (h'.core.route r').vehicle) (itinerary h'.core r') := no.verdict.1

theorem mem_stopTrips {c : Core} {s t : Nat} : t ∈ stopTrips c s ↔
    (∃ p ∈ (c.stop s).pickups, (c.pt p).trip = t) ∨ ∃ p ∈ (c.stop s).deliveries, (c.pt p).trip = t := by
  unfold stopTrips
  simp only [List.map_append, List.mem_append, List.mem_map]

/-- The stops of a trip in a route. -/
theorem WellFormed.trip_stops {c : Core} {r t : Nat} (hw : WellFormed c r) (ht : t ∈ tripsOf c r)
    (hs : SingleVisits (duties c r)) :
    ∃ p u d pre mid suf, (c.route r).stops = pre ++ u :: (mid ++ d :: suf) ∧ pre ≠ [] ∧ suf ≠ [] ∧
      p ∈ (c.stop u).pickups ∧ p ∈ (c.stop d).deliveries ∧ (c.pt p).trip = t ∧
      (∀ x ∈ pre ++ mid ++ suf, t ∉ stopTrips c x) ∧
      (∀ q, q ∈ (c.stop u).pickups ++ (c.stop u).deliveries → q = p) ∧
      (∀ q, q ∈ (c.stop d).pickups ++ (c.stop d).deliveries → q = p) := by
  rw [tripsOf_eq] at ht
  obtain ⟨p, hp, hpt⟩ := List.mem_map.1 ht
  obtain ⟨u, d, pre, mid, suf, e, hu, hd, hpu, hpd⟩ := hw.stops_of hp
  have hn := hw.nodup
  have hus : u ∈ (c.route r).stops := by rw [e]; simp
  have hds : d ∈ (c.route r).stops := by rw [e]; simp
  have one : ∀ s ∈ (c.route r).stops, ((c.stop s).pickups ++ (c.stop s).deliveries).length ≤ 1 := by
    intro s hs'
    have := hs.1 (visitOf c s).duty (List.mem_map.2 ⟨visitOf c s, List.mem_map.2 ⟨s, hs', rfl⟩, rfl⟩)
    simpa [Visit.duty, visitOf] using this
  have only : ∀ s ∈ (c.route r).stops, p ∈ (c.stop s).pickups ++ (c.stop s).deliveries →
      ∀ q, q ∈ (c.stop s).pickups ++ (c.stop s).deliveries → q = p := by
    intro s hs' hp' q hq
    have h1 := one s hs'
    match hl : (c.stop s).pickups ++ (c.stop s).deliveries, h1 with
    | [], _ => rw [hl] at hq; simp at hq
    | [z], _ =>
      rw [hl] at hq hp'
      simp at hq hp'
      rw [hq, hp']
    | _ :: _ :: _, h => simp at h
  refine ⟨p, u, d, pre, mid, suf, e, ?_, ?_, hpu, hpd, hpt, ?_, only u hus (List.mem_append_left _ hpu),
    only d hds (List.mem_append_right _ hpd)⟩
  · rintro rfl
    have := (hw.depot u (by rw [e]; rfl)).1
    rw [this] at hpu; simp at hpu
  · rintro rfl
    have hl : (duties c r).getLast? = some (visitOf c d).duty := by
      unfold duties itinerary
      rw [e]
      simp only [List.map_append, List.map_cons, List.map_nil]
      rw [← List.cons_append, ← List.append_assoc, List.getLast?_concat]
    have := (hs.2 _ hl).2
    simp [Visit.duty, visitOf] at this
    rw [this] at hpd; simp at hpd
  · intro x hx hxt
    have hxs : x ∈ (c.route r).stops := by
      rw [e]
      simp only [List.mem_append, List.mem_cons] at hx ⊢
      tauto
    have hxu : x ≠ u ∧ x ≠ d := by
      rw [e] at hn
      simp only [List.nodup_append, List.nodup_cons, List.mem_append, List.mem_cons] at hn hx
      constructor
      · rintro rfl
        rcases hx with (h0 | h0) | h0
        · exact hn.2.2 x h0 x (.inl rfl) rfl
        · exact hn.2.1.1 (.inl h0)
        · exact hn.2.1.1 (.inr (.inr h0))
      · rintro rfl
        rcases hx with (h0 | h0) | h0
        · exact hn.2.2 x h0 x (.inr (.inr (.inl rfl))) rfl
        · exact hn.2.1.2.2.2 x h0 x (.inl rfl) rfl
        · exact hn.2.1.2.2.1.1 h0
    rcases mem_stopTrips.1 hxt with ⟨q, hq, hqt⟩ | ⟨q, hq, hqt⟩
    · have : q = p := hw.trip_inj (List.mem_flatMap.2 ⟨x, hxs, hq⟩) hp (by rw [hqt, hpt])
      subst this
      have := (hw.pick' hxs hq).2.1
      rw [hu] at this
      exact hxu.1 (Option.some.inj this).symm
    · have : q = p := hw.trip_inj (hw.deliveries_sub_pickups q (List.mem_flatMap.2 ⟨x, hxs, hq⟩)) hp (by rw [hqt, hpt])
      subst this
      have := (hw.drop' hxs hq).2.1
      rw [hd] at this
      exact hxu.2 (Option.some.inj this).symm

theorem newOrigin_run {md : Mode} (hE : EnvOK E) {R : Nat → Prop} {h : Heap} (inv : Inv E md R h) {o t : Nat} (ho : R o)
    (hs : SingleVisits (duties h.core o)) (ht : t ∈ tripsOf h.core o) :
    ∃ r' b h1 h2 h3 h', cloneRoute E o 0 h = (.ok r', h1) ∧ removeTrip E r' t h1 = (.ok (), h2) ∧
      flushRoute r' h2 = (.ok (), h3) ∧ routeFeasible E r' h3 = (.ok b, h') ∧ NewOrigin E md R h h' o t r' b := by
  have hw := inv.ok.wf o ho
  obtain ⟨r', idx, h1, pre0, suf0, F, e1, cl, hpl, hidx1, hidx2⟩ := cloneRouteIdx_run (E := E) hw 0
  have hp0 : pre0 = [] := List.eq_nil_of_length_eq_zero (by omega)
  have hF : (h1.core.route r').stops = F := by rw [cl.stops, hp0]; rfl
  have hit : itinerary h1.core r' = itinerary h.core o := cl.itinerary hw
  have hdu : duties h1.core r' = duties h.core o := by unfold duties; rw [hit]
  have inv1 : Inv E md (Plus R r') h1 := cl.inv inv ho (by omega)
  have hs1 : SingleVisits (duties h1.core r') := by rw [hdu]; exact hs
  have ht1 : t ∈ tripsOf h1.core r' := by unfold tripsOf; rw [hit]; exact ht
  obtain ⟨p, u, d, pre, mid, suf, e, hpre, hsuf, hpu, hpd, hpt, hout, ou, od⟩ := cl.wf.trip_stops ht1 hs1
  have hu : t ∈ stopTrips h1.core u := mem_stopTrips.2 (.inl ⟨p, hpu, hpt⟩)
  have hd : t ∈ stopTrips h1.core d := mem_stopTrips.2 (.inr ⟨p, hpd, hpt⟩)
  obtain ⟨g, h2, e2, g2, gs, gv, gr, gst, gpt, gn1, gn2, gn3, gc, ga, dr⟩ := removeTrip_keeps (E := E) hE cl.wf.toChained
    (inv1.sound Plus.right).2 e hpre hsuf hu hd hout (P := Draft h h1 r' F) cl.draft
    (fun g a b p q dg hx => dg.remove (by rw [hF] at hx; exact hx))
  -- the remaining stops
  have hn := cl.wf.nodup
  have hrest : (h1.core.route r').stops.filter (fun x => decide (x ≠ u ∧ x ≠ d)) = pre ++ mid ++ suf := by
    have hall : ∀ x ∈ pre ++ mid ++ suf, x ≠ u ∧ x ≠ d := by
      intro x hx
      exact ⟨fun h0 => hout x hx (h0 ▸ hu), fun h0 => hout x hx (h0 ▸ hd)⟩
    have f : ∀ l : List Nat, (∀ x ∈ l, x ∈ pre ++ mid ++ suf) → l.filter (fun x => decide (x ≠ u ∧ x ≠ d)) = l := fun l hl =>
      List.filter_eq_self.2 fun x hx => decide_eq_true (hall x (hl x hx))
    rw [e, List.filter_append, List.filter_cons_of_neg (by simp), List.filter_append, List.filter_cons_of_neg (by simp),
      f pre (by simp +contextual), f mid (by simp +contextual), f suf (by simp +contextual), List.append_assoc]
  have hsub : ∀ x ∈ (g.core.route r').stops, x ∈ (h1.core.route r').stops := by
    rw [gs, ← hrest]; exact fun x hx => (List.mem_filter.1 hx).1
  have hwf : WellFormed g.core r' := by
    refine dr.wf cl.wf gc hsub ?_ ?_ ?_
    · rw [gs]
      have a1 := List.length_pos_of_ne_nil hpre
      have a2 := List.length_pos_of_ne_nil hsuf
      simp only [List.length_append]; omega
    · rw [gs, e]
      cases pre with
      | nil => exact absurd rfl hpre
      | cons x l => rfl
    · intro a b q hsl hqa hqb hor
      rw [gs, ← hrest] at hor ⊢
      have has : a ∈ (h1.core.route r').stops := hsl.subset (by simp)
      have hbs : b ∈ (h1.core.route r').stops := hsl.subset (by simp)
      have key : q ≠ p := by
        rintro rfl
        have hau : a = u := by
          have x1 := (cl.wf.pick' has hqa).2.1
          have x2 := (cl.wf.pick' (by rw [e]; simp) hpu).2.1
          rw [x1] at x2; exact Option.some.inj x2
        have hbd : b = d := by
          have x1 := (cl.wf.drop' hbs hqb).2.1
          have x2 := (cl.wf.drop' (by rw [e]; simp) hpd).2.1
          rw [x1] at x2; exact Option.some.inj x2
        subst hau hbd
        rcases hor with h0 | h0 <;> simp at h0
      have ka : a ≠ u ∧ a ≠ d := by
        constructor
        · rintro rfl; exact key (ou q (List.mem_append_left _ hqa))
        · rintro rfl; exact key (od q (List.mem_append_left _ hqa))
      have kb : b ≠ u ∧ b ≠ d := by
        constructor
        · rintro rfl; exact key (ou q (List.mem_append_right _ hqb))
        · rintro rfl; exact key (od q (List.mem_append_right _ hqb))
      have := hsl.filter (fun x => decide (x ≠ u ∧ x ≠ d))
      simpa [ka.1, ka.2, kb.1, kb.2] using this
  have invg : Inv E md (Plus R r') g := dr.inv cl inv ho (.inl (by rw [hp0]; rfl)) (F' := pre ++ mid ++ suf)
    (by rw [gs, hp0]; rfl) (by rw [← gs, ← hF]; exact hsub) hwf
  have inv2 := invg.growsV g2.toV
  obtain ⟨h3, e3, k3, c3, f3⟩ := flushRoute_keeps (h := h2) (r := r') (S := Plus R r')
  obtain ⟨h3', e3', x1, x2, x3, x4, x5⟩ := flushRoute_run h2 r'
  rw [e3] at e3'
  obtain rfl : h3 = h3' := (Prod.mk.inj e3').2
  have inv3 := inv2.keeps k3
  obtain ⟨h4, e4, g4, m4⟩ := routeFeasible_memo hE (inv3.ok.wf r' Plus.right) rfl (inv3.ok.agree r' Plus.right)
  have hcore : h4.core = g.core := by rw [g4.core, c3, g2.core]
  have e5 : (h1.core.route r').stops.filter ((fun v : Visit => decide (t ∉ v.picks ∧ t ∉ v.drops)) ∘ visitOf h1.core) = pre ++ mid ++ suf := by
    rw [← hrest]
    apply List.filter_congr
    intro x hx
    have : (t ∉ (visitOf h1.core x).picks ∧ t ∉ (visitOf h1.core x).drops) ↔ (x ≠ u ∧ x ≠ d) := by
      have q0 : t ∈ stopTrips h1.core x ↔ t ∈ (visitOf h1.core x).picks ∨ t ∈ (visitOf h1.core x).drops := by
        rw [stopTrips_visit, List.mem_append]
      constructor
      · intro h0
        refine ⟨?_, ?_⟩
        · rintro rfl; exact (q0.1 hu).elim h0.1 h0.2
        · rintro rfl; exact (q0.1 hd).elim h0.1 h0.2
      · intro h0
        have hx' : x ∈ pre ++ mid ++ suf := by rw [← hrest]; exact List.mem_filter.2 ⟨hx, decide_eq_true h0⟩
        have := hout x hx'
        rw [q0] at this
        exact ⟨fun h1 => this (.inl h1), fun h1 => this (.inr h1)⟩
    exact decide_eq_decide.2 this
  have hvis : itinerary h4.core r' = (itinerary h.core o).filter fun v => decide (t ∉ v.picks ∧ t ∉ v.drops) := by
    rw [← hit]
    unfold itinerary
    rw [hcore, gs, List.filter_map, e5]
    exact List.map_congr_left fun x _ => by rw [dr.visit]
  refine ⟨r', _, h1, h2, h3, h4, cloneRoute_eq e1, e2, e3, e4, inv3.growsV g4, cl.new, ?_, ?_, ?_, ?_, ?_, ?_, ?_⟩
  · rw [hcore, gn3, cl.nRoute]
  · rw [hcore]
    exact (dr.below.keeps inv.ok.wf).core
  · unfold duties withoutTrip
    rw [hvis, List.filter_map]
    rfl
  · rw [hcore, gv, cl.vehicle]
  · intro s hs'
    rw [hcore] at hs'
    have := hsub s hs'
    rw [hF] at this
    exact (cl.freshStop s this).1
  · have hw3 := inv3.ok.wf r' Plus.right
    rw [g4.core, ← freshV_iff hw3]
    have hsf : ∀ s ∈ (h3.core.route r').stops, h3.sfeas s = none := by
      intro s hs'
      rw [c3, g2.core] at hs'
      rw [x2, g2.sfeas]
      have := hsub s hs'
      rw [hF] at this
      exact (dr.freshStop s this).2.2
    have key : effR E h3 r' = freshV E h3.core r' := by
      unfold effR
      rw [f3, Option.getD_none, routeV, freshV]
      congr 1
      rw [Bool.eq_iff_iff, List.all_eq_true, List.all_eq_true]
      refine forall₂_congr fun q hq => ?_
      have hq2 : q ∈ routePlannedTrips h2.core r' := by rw [← c3]; exact hq
      unfold effP ptV
      rw [x5 q hq2, Option.getD_none]
      obtain ⟨u', d', pre', mid', suf', e', hu', hd', _, _⟩ := hw3.stops_of hq
      unfold tripV
      rw [hu', hd']
      simp only [effS, hsf u' (by rw [e']; simp), hsf d' (by rw [e']; simp), Option.getD_none]
    rw [key]
  · exact hvis

end Jinete
