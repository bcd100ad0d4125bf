import Verif.Model.Copy
import Verif.Proofs.Insert

/-!
# Deep copies keep and repeat the invariants
-/

set_option autoImplicit false

namespace Jinete

variable {E : Env} {md : Mode}

theorem repeated_low {α : Type} {n k : Nat} {f g : Nat → α} (h : k < n) : repeated n f g k = f k := if_pos h

theorem repeated_high {α : Type} {n k : Nat} {f g : Nat → α} (h : k < n) : repeated n f g (k + n) = g k := by
  unfold repeated
  rw [if_neg (by omega), if_pos (by omega), Nat.add_sub_cancel]

theorem double_below (h : Heap) : Below h h.double where
  nStop := Nat.le_add_left _ _
  nPt := Nat.le_add_left _ _
  nRoute := Nat.le_add_left _ _
  stop _ hx := if_pos hx
  caches _ hx := ⟨repeated_low hx, repeated_low hx, repeated_low hx, repeated_low hx⟩
  pt _ hx := ⟨if_pos hx, repeated_low hx⟩
  route _ hx := ⟨if_pos hx, if_pos hx⟩

section
variable {h : Heap} {q : Nat} (hw : WellFormed h.core q)

theorem double_stop {s : Nat} (hs : s < h.core.nStop) :
    h.double.core.stop (s + h.core.nStop) = (h.core.stop s).moved h.core.nStop h.core.nPt :=
  repeated_high (g := fun s => (h.core.stop s).moved h.core.nStop h.core.nPt) hs

theorem double_pt {p : Nat} (hp : p < h.core.nPt) : h.double.core.pt (p + h.core.nPt) = (h.core.pt p).moved h.core.nStop :=
  repeated_high (g := fun p => (h.core.pt p).moved h.core.nStop) hp

include hw

theorem double_route : h.double.core.route (q + h.core.nRoute) = (h.core.route q).moved h.core.nStop :=
  repeated_high (g := fun r => (h.core.route r).moved h.core.nStop) hw.exists_

theorem double_stops : (h.double.core.route (q + h.core.nRoute)).stops = (h.core.route q).stops.map (· + h.core.nStop) := by
  rw [double_route hw]; rfl

theorem double_visit {s : Nat} (hs : s ∈ (h.core.route q).stops) :
    visitOf h.double.core (s + h.core.nStop) = visitOf h.core s := by
  have h0 : h.double.core.stop (s + h.core.nStop) = _ := double_stop (hw.alloc s hs)
  have hp : ∀ p ∈ ptsAt h.core s, (h.double.core.pt (p + h.core.nPt)).trip = (h.core.pt p).trip := by
    intro p hp
    rw [double_pt (hw.ptsAt_alloc hs hp)]; rfl
  unfold visitOf
  rw [h0]
  congr 1
  · show List.map _ (List.map _ _) = _
    rw [List.map_map]
    exact List.map_congr_left fun p hp' => hp p (List.mem_append_left _ hp')
  · show List.map _ (List.map _ _) = _
    rw [List.map_map]
    exact List.map_congr_left fun p hp' => hp p (List.mem_append_right _ hp')

theorem double_itinerary : itinerary h.double.core (q + h.core.nRoute) = itinerary h.core q := by
  unfold itinerary
  rw [double_stops hw, List.map_map]
  exact List.map_congr_left fun s hs => double_visit hw hs

theorem double_split {pre suf : List Nat} {s : Nat} (e : (h.double.core.route (q + h.core.nRoute)).stops = pre ++ s :: suf) :
    ∃ pre' s' suf', (h.core.route q).stops = pre' ++ s' :: suf' ∧ pre = pre'.map (· + h.core.nStop) ∧
      s = s' + h.core.nStop ∧ suf = suf'.map (· + h.core.nStop) := by
  rw [double_stops hw] at e
  obtain ⟨a, b, e1, e2, e3⟩ := List.map_eq_append_iff.1 e
  obtain ⟨s', b', rfl, e4, e5⟩ := List.map_eq_cons_iff.1 e3
  exact ⟨a, s', b', e1, e2.symm, e4.symm, e5.symm⟩

theorem double_wf : WellFormed h.double.core (q + h.core.nRoute) where
  nodup := by
    rw [double_stops hw]
    exact hw.nodup.map fun a b e => Nat.add_right_cancel e
  alloc s hs := by
    rw [double_stops hw] at hs
    obtain ⟨x, hx, rfl⟩ := List.mem_map.1 hs
    have := hw.alloc x hx
    show x + h.core.nStop < h.core.nStop + h.core.nStop
    omega
  linked pre s suf e := by
    obtain ⟨pre', s', suf', e1, rfl, rfl, rfl⟩ := double_split hw e
    rw [double_stop (hw.alloc s' (by rw [e1]; simp))]
    show (h.core.stop s').previous.map (· + h.core.nStop) = _
    rw [hw.linked pre' s' suf' e1, List.getLast?_map]
  vehicle s hs := by
    rw [double_stops hw] at hs
    obtain ⟨x, hx, rfl⟩ := List.mem_map.1 hs
    rw [double_stop (hw.alloc x hx), double_route hw]
    exact hw.vehicle x hx
  exists_ := by
    have := hw.exists_
    show q + h.core.nRoute < h.core.nRoute + h.core.nRoute
    omega
  length := by rw [double_stops hw, List.length_map]; exact hw.length
  depot s hs := by
    rw [double_stops hw, List.head?_map] at hs
    obtain ⟨x, hx, rfl⟩ := Option.mem_map.1 hs
    rw [double_stop (hw.alloc x (List.mem_of_head? hx))]
    obtain ⟨h1, h2⟩ := hw.depot x hx
    exact ⟨by show (h.core.stop x).pickups.map _ = []; rw [h1]; rfl, by show (h.core.stop x).deliveries.map _ = []; rw [h2]; rfl⟩
  pick pre s suf e p hp := by
    obtain ⟨pre', s', suf', e1, rfl, rfl, rfl⟩ := double_split hw e
    have hs' : s' ∈ (h.core.route q).stops := by rw [e1]; simp
    rw [double_stop (hw.alloc s' hs')] at hp
    obtain ⟨x, hx, rfl⟩ := List.mem_map.1 hp
    obtain ⟨k1, k2, d, k3, k4, k5⟩ := hw.pick pre' s' suf' e1 x hx
    rw [double_pt k1]
    refine ⟨by show x + h.core.nPt < h.core.nPt + h.core.nPt; omega, ?_, d + h.core.nStop, List.mem_map.2 ⟨d, k3, rfl⟩, ?_, ?_⟩
    · show (h.core.pt x).pickup.map _ = _; rw [k2]; rfl
    · show (h.core.pt x).delivery.map _ = _; rw [k4]; rfl
    · rw [double_stop (hw.alloc d (by rw [e1]; simp [k3]))]
      exact List.mem_map.2 ⟨x, k5, rfl⟩
  drop pre s suf e p hp := by
    obtain ⟨pre', s', suf', e1, rfl, rfl, rfl⟩ := double_split hw e
    have hs' : s' ∈ (h.core.route q).stops := by rw [e1]; simp
    rw [double_stop (hw.alloc s' hs')] at hp
    obtain ⟨x, hx, rfl⟩ := List.mem_map.1 hp
    obtain ⟨k1, k2, d, k3, k4, k5⟩ := hw.drop pre' s' suf' e1 x hx
    rw [double_pt k1]
    refine ⟨by show x + h.core.nPt < h.core.nPt + h.core.nPt; omega, ?_, d + h.core.nStop, List.mem_map.2 ⟨d, k3, rfl⟩, ?_, ?_⟩
    · show (h.core.pt x).delivery.map _ = _; rw [k2]; rfl
    · show (h.core.pt x).pickup.map _ = _; rw [k4]; rfl
    · rw [double_stop (hw.alloc d (by rw [e1]; simp [k3]))]
      exact List.mem_map.2 ⟨x, k5, rfl⟩
  sets s hs := by
    rw [double_stops hw] at hs
    obtain ⟨x, hx, rfl⟩ := List.mem_map.1 hs
    rw [double_stop (hw.alloc x hx)]
    obtain ⟨h1, h2⟩ := hw.sets x hx
    exact ⟨h1.map fun a b e => Nat.add_right_cancel e, h2.map fun a b e => Nat.add_right_cancel e⟩
  trips := by rw [double_itinerary hw]; exact hw.trips

theorem double_rev {s : Nat} {anc : List Nat} (hs : ∀ x ∈ s :: anc, x ∈ (h.core.route q).stops) :
    tmRev E h.double.core (s + h.core.nStop) (anc.map (· + h.core.nStop)) = tmRev E h.core s anc ∧
    loadRev E h.double.core (s + h.core.nStop) (anc.map (· + h.core.nStop)) = loadRev E h.core s anc := by
  induction anc generalizing s with
  | nil =>
    have h1 := hs s (by simp)
    simp only [List.map_nil, tmRev, loadRev]
    rw [double_visit hw h1, double_stop (hw.alloc s h1)]
    exact ⟨rfl, rfl⟩
  | cons p anc ih =>
    have h1 := hs s (by simp)
    have h2 := hs p (by simp)
    obtain ⟨i1, i2⟩ := ih (s := p) fun x hx => hs x (List.mem_cons_of_mem _ hx)
    simp only [List.map_cons, tmRev, loadRev]
    rw [i1, i2, double_visit hw h1, double_stop (hw.alloc p h2)]
    exact ⟨rfl, rfl⟩

theorem double_at {s : Nat} (hs : s ∈ (h.core.route q).stops) :
    tmAt E h.double.core (s + h.core.nStop) = tmAt E h.core s ∧ loadAt E h.double.core (s + h.core.nStop) = loadAt E h.core s := by
  obtain ⟨pre, suf, e⟩ := List.append_of_mem hs
  have e' : (h.double.core.route (q + h.core.nRoute)).stops = pre.map (· + h.core.nStop) ++ (s + h.core.nStop) :: suf.map (· + h.core.nStop) := by
    rw [double_stops hw, e]; simp
  have hw' := double_wf hw
  rw [hw'.tmAt_eq e', hw'.loadAt_eq e', hw.tmAt_eq e, hw.loadAt_eq e, ← List.map_reverse]
  exact double_rev hw (sub_of_split e)

theorem double_coh {s : Nat} (hs : s ∈ (h.core.route q).stops) (hc : CohAt E h s) : CohAt E h.double (s + h.core.nStop) := by
  obtain ⟨pre, suf, e⟩ := List.append_of_mem hs
  have e' : (h.double.core.route (q + h.core.nRoute)).stops = pre.map (· + h.core.nStop) ++ (s + h.core.nStop) :: suf.map (· + h.core.nStop) := by
    rw [double_stops hw, e]; simp
  intro anc ha
  have := ha.unique ((double_wf hw).anc e')
  rw [← List.map_reverse] at this
  subst this
  obtain ⟨h1, h2⟩ := double_rev (E := E) hw (sub_of_split e)
  rw [h1, h2]
  have hlt := hw.alloc s hs
  have a1 : h.double.arr (s + h.core.nStop) = h.arr s := repeated_high hlt
  have a2 : h.double.dep (s + h.core.nStop) = h.dep s := repeated_high hlt
  have a3 : h.double.cap (s + h.core.nStop) = h.cap s := repeated_high hlt
  rw [a1, a2, a3]
  exact hc _ (hw.anc e)

theorem double_stopV {s : Nat} (hs : s ∈ (h.core.route q).stops) : stopV E h.double.core (s + h.core.nStop) = stopV E h.core s := by
  obtain ⟨h1, h2⟩ := double_at (E := E) hw hs
  have hv := double_visit hw hs
  have hpick : (visitOf h.double.core (s + h.core.nStop)).picks = (visitOf h.core s).picks := by rw [hv]
  have hdrop : (visitOf h.double.core (s + h.core.nStop)).drops = (visitOf h.core s).drops := by rw [hv]
  have e1 : stopEarliest E h.double.core (s + h.core.nStop) = stopEarliest E h.core s := by
    have := congrArg (List.map fun t => (E.trip t).originEarliest) hpick
    have := congrArg (List.map fun t => (E.trip t).destinationEarliest E.metric) hdrop
    simp only [visitOf, List.map_map] at *
    unfold stopEarliest ptTrip
    simp only [Function.comp_def] at *
    simp_all
  have e2 : stopLatest E h.double.core (s + h.core.nStop) = stopLatest E h.core s := by
    have := congrArg (List.map fun t => (E.trip t).originLatest E.metric) hpick
    have := congrArg (List.map fun t => (E.trip t).destinationLatest) hdrop
    simp only [visitOf, List.map_map] at *
    unfold stopLatest ptTrip
    simp only [Function.comp_def] at *
    simp_all
  unfold stopV
  rw [h1, h2, e1, e2, double_stop (hw.alloc s hs)]
  rfl

omit hw in
theorem double_asap : h.double.core.asap = ({ h with core := h.core.asap } : Heap).double.core := by
  simp only [Heap.double, Core.asap, Core.mk.injEq, and_true]
  funext s
  simp only [repeated]
  split
  · rfl
  · split <;> rfl

theorem double_loadOK {s : Nat} (hs : s ∈ (h.core.route q).stops) (hl : loadOK E h.core s) :
    loadOK E h.double.core (s + h.core.nStop) := by
  have e : stopLatest E h.double.core (s + h.core.nStop) = stopLatest E h.core s := by
    have hv := double_visit hw hs
    have := congrArg (List.map fun t => (E.trip t).originLatest E.metric) (congrArg Visit.picks hv)
    have := congrArg (List.map fun t => (E.trip t).destinationLatest) (congrArg Visit.drops hv)
    simp only [visitOf, List.map_map] at *
    unfold stopLatest ptTrip
    simp only [Function.comp_def] at *
    simp_all
  refine ⟨?_, ?_⟩
  · rw [(double_at (E := E) hw hs).2, double_stop (hw.alloc s hs)]
    exact hl.load
  · have k := (double_at (E := E) (h := { h with core := h.core.asap }) hw.asap hs).1
    rw [← double_asap] at k
    rw [e]
    exact (congrArg (fun x : Tm => Bound.leQ x.start ((stopLatest E h.core s).addQ errorBound)) k).trans hl.closing

theorem double_planned : routePlannedTrips h.double.core (q + h.core.nRoute) =
    (routePlannedTrips h.core q).map (· + h.core.nPt) := by
  unfold routePlannedTrips
  rw [double_stops hw, List.flatMap_map, List.map_flatMap]
  refine List.flatMap_congr fun s hs => ?_
  rw [double_stop (hw.alloc s hs)]
  rfl

theorem double_rideV {p u d : Nat} (hp : p < h.core.nPt) (hu : u ∈ (h.core.route q).stops) (hd : d ∈ (h.core.route q).stops) :
    rideV E h.double.core (p + h.core.nPt) (u + h.core.nStop) (d + h.core.nStop) = rideV E h.core p u d := by
  unfold rideV ptTrip
  rw [(double_at (E := E) hw hu).1, (double_at (E := E) hw hd).1, double_pt hp]
  rfl

theorem double_ptVerdict {p : Nat} {b : Bool} (hp : p ∈ routePlannedTrips h.core q) (hv : PtVerdict E md h.core p b) :
    PtVerdict E md h.double.core (p + h.core.nPt) b := by
  obtain ⟨u, hu, hpu⟩ := List.mem_flatMap.1 hp
  obtain ⟨pre, suf, e⟩ := List.append_of_mem hu
  obtain ⟨k1, k2, d, k3, k4, _⟩ := hw.pick pre u suf e p hpu
  have hd : d ∈ (h.core.route q).stops := by rw [e]; simp [k3]
  have e1 : (h.double.core.pt (p + h.core.nPt)).pickup = some (u + h.core.nStop) := by
    rw [double_pt k1]; show (h.core.pt p).pickup.map _ = _; rw [k2]; rfl
  have e2 : (h.double.core.pt (p + h.core.nPt)).delivery = some (d + h.core.nStop) := by
    rw [double_pt k1]; show (h.core.pt p).delivery.map _ = _; rw [k4]; rfl
  constructor
  · intro hm hb
    obtain ⟨u', d', a1, a2, a3, a4, a5⟩ := hv.sound hm hb
    rw [k2] at a1; rw [k4] at a2
    cases a1; cases a2
    exact ⟨_, _, e1, e2, double_loadOK hw hu a3, double_loadOK hw hd a4, by rw [double_rideV hw k1 hu hd]; exact a5⟩
  · intro hm
    rw [hv.full hm]
    unfold tripV
    rw [e1, e2, k2, k4]
    simp only
    rw [double_stopV hw hu, double_stopV hw hd, double_rideV hw k1 hu hd]

end

/-- The copies of a family. -/
def Copies (R : Nat → Prop) (n : Nat) : Nat → Prop := fun q => ∃ r, R r ∧ q = r + n

/-- A deep copy keeps the invariants of the originals, and the copies have them too. -/
theorem double_inv {R : Nat → Prop} {h : Heap} (inv : Inv E md R h) :
    Inv E md (fun q => R q ∨ Copies R h.core.nRoute q) h.double := by
  have old := inv.keeps ((double_below h).keeps inv.ok.wf)
  have hsame : ∀ q, R q → (h.double.core.route q).stops = (h.core.route q).stops := fun q hq => by
    rw [((double_below h).route q (inv.ok.wf q hq).exists_).1]
  have hold : ∀ q, R q → ∀ s, (h.double.core.route q).stops.head? = some s → s < h.core.nStop := fun q hq s hs => by
    rw [hsame q hq] at hs
    exact (inv.ok.wf q hq).alloc s (List.mem_of_head? hs)
  have hnew : ∀ q, R q → ∀ s, (h.double.core.route (q + h.core.nRoute)).stops.head? = some s →
      ∃ x, (h.core.route q).stops.head? = some x ∧ s = x + h.core.nStop := fun q hq s hs => by
    rw [double_stops (inv.ok.wf q hq), List.head?_map] at hs
    obtain ⟨x, hx, rfl⟩ := Option.map_eq_some_iff.1 hs
    exact ⟨x, hx, rfl⟩
  refine ⟨⟨?_, ?_, ?_⟩, ⟨?_, ?_, ?_⟩⟩
  · rintro q (hq | ⟨r, hr, rfl⟩)
    · exact old.ok.wf q hq
    · exact double_wf (inv.ok.wf r hr)
  · rintro q (hq | ⟨r, hr, rfl⟩) s hs
    · exact old.ok.agree q hq s hs
    · rw [double_stops (inv.ok.wf r hr)] at hs
      obtain ⟨x, hx, rfl⟩ := List.mem_map.1 hs
      exact double_coh (inv.ok.wf r hr) hx (inv.ok.agree r hr x hx)
  · rintro q (hq | ⟨r, hr, rfl⟩) q' (hq' | ⟨r', hr', rfl⟩) s h1 h2
    · exact old.ok.share q hq q' hq' s h1 h2
    · obtain ⟨x, _, rfl⟩ := hnew r' hr' s h2
      have := hold q hq _ h1
      omega
    · obtain ⟨x, _, rfl⟩ := hnew r hr s h1
      have := hold q' hq' _ h2
      omega
    · obtain ⟨x, hx, rfl⟩ := hnew r hr s h1
      obtain ⟨y, hy, e⟩ := hnew r' hr' _ h2
      have : x = y := Nat.add_right_cancel e
      subst this
      rw [double_stops (inv.ok.wf r hr), double_stops (inv.ok.wf r' hr'), List.getElem?_map, List.getElem?_map,
        inv.ok.share r hr r' hr' x hx hy]
  · rintro q (hq | ⟨r, hr, rfl⟩) b hb
    · exact old.vd.route q hq b hb
    · have : h.double.rfeas (r + h.core.nRoute) = none :=
        repeated_high (f := h.rfeas) (g := fun _ => none) (inv.ok.wf r hr).exists_
      rw [this] at hb
      cases hb
  · rintro q (hq | ⟨r, hr, rfl⟩) s hs b hb
    · exact old.vd.stop q hq s hs b hb
    · have hw := inv.ok.wf r hr
      rw [double_stops hw] at hs
      obtain ⟨x, hx, rfl⟩ := List.mem_map.1 hs
      have hb' : h.sfeas x = some b := by
        have : h.double.sfeas (x + h.core.nStop) = h.sfeas x := repeated_high (f := h.sfeas) (hw.alloc x hx)
        rw [← this]; exact hb
      have hv := inv.vd.stop r hr x hx b hb'
      exact ⟨fun hm hbt => double_loadOK hw hx (hv.load hm hbt), fun hm => by rw [double_stopV hw hx]; exact hv.full hm⟩
  · rintro q (hq | ⟨r, hr, rfl⟩) p hp b hb
    · exact old.vd.pt q hq p hp b hb
    · have hw := inv.ok.wf r hr
      rw [double_planned hw] at hp
      obtain ⟨x, hx, rfl⟩ := List.mem_map.1 hp
      obtain ⟨u, hu, hpu⟩ := List.mem_flatMap.1 hx
      have hlt := hw.ptsAt_alloc hu (List.mem_append_left _ hpu)
      have hb' : h.pfeas x = some b := by
        have : h.double.pfeas (x + h.core.nPt) = h.pfeas x := repeated_high (f := h.pfeas) hlt
        rw [← this]; exact hb
      exact double_ptVerdict hw hx (inv.vd.pt r hr x hx b hb')

end Jinete
