import Verif.Proofs.Routes
import Verif.Model.Strategy

/-!
# Steps of `_compute_one`: cloning, building the stops, appending the planned trip
-/

set_option autoImplicit false

namespace Jinete

variable {E : Env}

/-- The family `R` and the route `r'`. -/
def Plus (R : Nat → Prop) (r' : Nat) : Nat → Prop := fun q => R q ∨ q = r'

theorem Plus.left {R : Nat → Prop} {r' q : Nat} (h : R q) : Plus R r' q := .inl h
theorem Plus.right {R : Nat → Prop} {r' : Nat} : Plus R r' r' := .inr rfl

/-- The invariant of a family: well formed, coherent, with admissible verdicts. -/
structure Inv (E : Env) (md : Mode) (R : Nat → Prop) (h : Heap) : Prop where
  ok : RoutesOK E R h
  vd : VerdictsOK E md R h

namespace Inv

variable {md : Mode} {R : Nat → Prop} {h h' : Heap}

theorem keeps (inv : Inv E md R h) (k : Keeps R h h') : Inv E md R h' :=
  ⟨k.routesOK inv.ok, k.verdictsOK inv.ok inv.vd⟩

theorem growsV (inv : Inv E md R h) (g : GrowsV E h h') : Inv E md R h' :=
  ⟨inv.ok.growsV g, inv.vd.growsV inv.ok.wf g⟩

theorem subset {R' : Nat → Prop} (inv : Inv E md R h) (hs : ∀ q, R' q → R q) : Inv E md R' h :=
  ⟨inv.ok.subset hs, inv.vd.subset hs⟩

theorem agree (inv : Inv E md R h) {q : Nat} (hq : R q) : CachesAgree E h q :=
  (cachesAgree_iff (inv.ok.wf q hq).toChained).2 (inv.ok.agree q hq)

/-- Adding a route to the family. -/
theorem add (inv : Inv E md R h) {r' : Nat} (hw : WellFormed h.core r') (ha : ∀ s ∈ (h.core.route r').stops, CohAt E h s)
    (hs : ∀ q, R q → ∀ s, (h.core.route q).stops.head? = some s → (h.core.route r').stops.head? = some s →
      (h.core.route q).stops[1]? = (h.core.route r').stops[1]?)
    (hv : VerdictsOK E md (· = r') h) : Inv E md (Plus R r') h := by
  refine ⟨⟨?_, ?_, ?_⟩, inv.vd.or hv⟩
  · rintro q (hq | rfl)
    · exact inv.ok.wf q hq
    · exact hw
  · rintro q (hq | rfl)
    · exact inv.ok.agree q hq
    · exact ha
  · rintro q (hq | rfl) q' (hq' | rfl) s h1 h2
    · exact inv.ok.share q hq q' hq' s h1 h2
    · exact hs q hq s h1 h2
    · exact (hs q' hq' s h2 h1).symm
    · rfl

end Inv

set_option linter.unusedVariables false

/-- Objects that existed keep everything. -/
structure Below (h h' : Heap) : Prop where
  nStop : h.core.nStop ≤ h'.core.nStop
  nPt : h.core.nPt ≤ h'.core.nPt
  nRoute : h.core.nRoute ≤ h'.core.nRoute
  stop : ∀ x, x < h.core.nStop → h'.core.stop x = h.core.stop x
  caches : ∀ x, x < h.core.nStop → h'.arr x = h.arr x ∧ h'.dep x = h.dep x ∧ h'.cap x = h.cap x ∧ h'.sfeas x = h.sfeas x
  pt : ∀ p, p < h.core.nPt → h'.core.pt p = h.core.pt p ∧ h'.pfeas p = h.pfeas p
  route : ∀ q, q < h.core.nRoute → h'.core.route q = h.core.route q ∧ h'.rfeas q = h.rfeas q

theorem WellFormed.ptsAt_alloc {c : Core} {q s p : Nat} (hw : WellFormed c q) (hs : s ∈ (c.route q).stops)
    (hp : p ∈ ptsAt c s) : p < c.nPt := by
  rcases List.mem_append.1 hp with hp | hp
  · exact (hw.pick' hs hp).1
  · exact (hw.drop' hs hp).1

theorem Below.keeps {R : Nat → Prop} {h h' : Heap} (b : Below h h') (hw : ∀ q, R q → WellFormed h.core q) : Keeps R h h' where
  rfeas q hq := .inl (b.route q (hw q hq).exists_).2
  nStop := b.nStop
  nPt := b.nPt
  nRoute := b.nRoute
  route q hq := (b.route q (hw q hq).exists_).1
  stop q hq s hs := b.stop s ((hw q hq).alloc s hs)
  pt q hq s hs p hp := (b.pt p ((hw q hq).ptsAt_alloc hs hp)).1
  arr q hq s hs := .inl (b.caches s ((hw q hq).alloc s hs)).1
  dep q hq s hs := .inl (b.caches s ((hw q hq).alloc s hs)).2.1
  cap q hq s hs := .inl (b.caches s ((hw q hq).alloc s hs)).2.2.1
  sfeas q hq s hs := .inl (b.caches s ((hw q hq).alloc s hs)).2.2.2
  pfeas q hq s hs p hp := .inl (b.pt p ((hw q hq).ptsAt_alloc hs hp)).2

theorem CloneOf.below {h h' : Heap} {r r' : Nat} {pre suf fresh : List Nat} (c : CloneOf h h' r r' pre suf fresh) :
    Below h h' where
  nStop := c.nStop
  nPt := c.nPt
  nRoute := by rw [c.nRoute]; omega
  stop := c.stop
  caches := c.caches
  pt := c.pt
  route q hq := c.route q (by rw [c.new]; omega)

/-! ## Verdicts of a route sharing a prefix -/

theorem verdicts_prefix {md : Mode} {h h' : Heap} {r r' : Nat} {pre suf suf' : List Nat}
    (hw : WellFormed h.core r) (hw' : WellFormed h'.core r') (hv : VerdictsOK E md (· = r) h)
    (e : (h.core.route r).stops = pre ++ suf) (e' : (h'.core.route r').stops = pre ++ suf')
    (hst : ∀ x ∈ pre, SameVisit h.core h'.core x ∧ (h'.core.stop x).pickups = (h.core.stop x).pickups)
    (hpt : ∀ x ∈ pre, ∀ p ∈ (h.core.stop x).pickups, h'.core.pt p = h.core.pt p)
    (hsf : ∀ x ∈ pre, h'.sfeas x = h.sfeas x ∨ h'.sfeas x = none)
    (hpf : ∀ x ∈ pre, ∀ p ∈ (h.core.stop x).pickups, h'.pfeas p = h.pfeas p ∨ h'.pfeas p = none)
    (hsf' : ∀ x ∈ suf', ∀ b, h'.sfeas x = some b → StopVerdict E md h'.core x b)
    (hpf' : ∀ x ∈ suf', ∀ p ∈ ptsAt h'.core x, h'.pfeas p = none)
    (hrf : ∀ b, h'.rfeas r' = some b → b = false) : VerdictsOK E md (· = r') h' := by
  have tm : ∀ s ∈ pre, tmAt E h'.core s = tmAt E h.core s ∧ loadAt E h'.core s = loadAt E h.core s :=
    fun s hs => tmAt_prefix hw.toChained hw'.toChained e e' (fun x hx => (hst x hx).1) hs
  have hsv : ∀ s ∈ pre, stopV E h'.core s = stopV E h.core s := fun s hs =>
    stopV_congr (hst s hs).1.serve (by rw [(tm s hs).1]) (tm s hs).2
  have hlo : ∀ s ∈ pre, loadOK E h.core s → loadOK E h'.core s := by
    intro s hs hl
    exact hl.congr (hst s hs).1.serve (tm s hs).2
      (tmAt_prefix hw.toChained.asap hw'.toChained.asap e e' (fun x hx => (hst x hx).1.serve.asap) hs).1
  have mem : ∀ s ∈ pre, s ∈ (h.core.route r).stops := fun s hs => by rw [e]; exact List.mem_append_left _ hs
  refine ⟨?_, ?_, ?_⟩
  · rintro q rfl b hb
    rw [hrf b hb]
    exact ⟨fun _ h0 => by simp at h0, fun h0 => by simp at h0⟩
  · rintro q rfl s hs b hb
    rw [e'] at hs
    rcases List.mem_append.1 hs with hs | hs
    · rcases hsf s hs with e1 | e1
      · rw [e1] at hb
        have := hv.stop r rfl s (mem s hs) b hb
        exact ⟨fun hm h0 => hlo s hs (this.load hm h0), fun hx => by rw [hsv s hs]; exact this.full hx⟩
      · rw [e1] at hb; cases hb
    · exact hsf' s hs b hb
  · rintro q rfl p hp b hb
    obtain ⟨u, d, P, M, S, es, hu, hd, hpu, hpd⟩ := hw'.stops_of hp
    have hus : u ∈ pre ++ suf' := by rw [← e', es]; simp
    have hds : d ∈ pre ++ suf' := by rw [← e', es]; simp
    rcases List.mem_append.1 hus with hus | hus
    swap
    · rw [hpf' u hus p (List.mem_append_left _ hpu)] at hb; cases hb
    rcases List.mem_append.1 hds with hds | hds
    swap
    · rw [hpf' d hds p (List.mem_append_right _ hpd)] at hb; cases hb
    rw [(hst u hus).2] at hpu
    have hpp := hpt u hus p hpu
    rw [hpp] at hu hd
    rcases hpf u hus p hpu with e1 | e1
    · rw [e1] at hb
      have := hv.pt r rfl p (List.mem_flatMap.2 ⟨u, mem u hus, hpu⟩) b hb
      refine this.congr hu hd hpp (hlo u hus) (hlo d hds) ?_ (fun _ => hsv u hus) (fun _ => hsv d hds)
      unfold rideV ptTrip
      rw [(tm u hus).1, (tm d hds).1, hpp]
    · rw [e1] at hb; cases hb

/-! ## Cloning -/

theorem CloneOf.inv {md : Mode} {R : Nat → Prop} {h h' : Heap} {r r' : Nat} {pre suf fresh : List Nat}
    (c : CloneOf h h' r r' pre suf fresh) (inv : Inv E md R h) (hr : R r)
    (hlen : pre.length = 0 ∨ 2 ≤ pre.length) : Inv E md (Plus R r') h' := by
  have hw := inv.ok.wf r hr
  have hk := c.below.keeps inv.ok.wf
  have mem : ∀ s ∈ pre, s ∈ (h.core.route r).stops := fun s hs => by rw [c.old]; exact List.mem_append_left _ hs
  refine (inv.keeps hk).add c.wf ((cachesAgree_iff c.wf.toChained).1 (c.agree hw (inv.agree hr))) ?_ ?_
  · intro q hq s h1 h2
    have hlt : s < h.core.nStop := by
      have := (hk.core.wf hq (inv.ok.wf q hq))
      rw [hk.route q hq] at h1
      exact (inv.ok.wf q hq).alloc s (List.mem_of_mem_head? h1)
    rw [hk.route q hq] at h1 ⊢
    rw [c.stops] at h2 ⊢
    rcases hlen with h0 | h0
    · have : pre = [] := List.eq_nil_of_length_eq_zero h0
      rw [this, List.nil_append] at h2
      have := (c.freshStop s (List.mem_of_mem_head? h2)).1
      omega
    · match pre, h0 with
      | a :: b :: t, _ =>
        have : (h.core.route r).stops.head? = some s := by rw [c.old]; simpa using h2
        rw [inv.ok.share q hq r hr s h1 this, c.old]
        simp
  · refine verdicts_prefix hw c.wf (inv.vd.subset (fun q hq => hq ▸ hr)) c.old c.stops ?_ ?_ ?_ ?_ ?_ ?_ ?_
    · intro x hx
      have := c.sameStop hw (mem x hx)
      exact ⟨this.visit, by rw [c.stop x (hw.alloc x (mem x hx))]⟩
    · intro x hx p hp
      exact (c.pt p (hw.pick' (mem x hx) hp).1).1
    · intro x hx
      exact .inl (c.caches x (hw.alloc x (mem x hx))).2.2.2
    · intro x hx p hp
      exact .inl (c.pt p (hw.pick' (mem x hx) hp).1).2
    · intro x hx b hb
      rw [(c.freshStop x hx).2.2] at hb; cases hb
    · intro x hx p hp
      exact (c.freshPt x hx p hp).2
    · intro b hb
      rw [c.rfeas] at hb; cases hb

/-! ## Building the stops and the planned trip -/

/-- `pickup`, `delivery` and the planned trip of `_compute_one`, strategies/abc.py:62-65. -/
def buildTrip (E : Env) (r' trip i j : Nat) : M Nat := do
  let pickup ← buildPickup E r' trip i
  let delivery ← buildDelivery E r' trip i j pickup
  let h ← Py.read
  newPlannedTrip E (h.core.route r').vehicle trip (some pickup) (some delivery)

/-- What building yields. -/
structure Built (E : Env) (h h' : Heap) (r t i j p u d : Nat) : Prop where
  below : Below h h'
  ready : Ready h'.core r p u d ((h.core.route r).stops.take (i + 1)) (((h.core.route r).stops.take j).drop (i + 1))
    ((h.core.route r).stops.drop j)
  trip : (h'.core.pt p).trip = t
  uNew : h.core.nStop ≤ u
  dNew : h.core.nStop ≤ d
  pNew : h.core.nPt ≤ p
  uVisit : visitOf h'.core u = ⟨(E.trip t).origin.position, none, [t], []⟩
  dVisit : visitOf h'.core d = ⟨(E.trip t).destination.position, none, [], [t]⟩
  uFeas : h'.sfeas u = none
  dFeas : h'.sfeas d = none
  pFeas : h'.pfeas p = none
  nRoute : h'.core.nRoute = h.core.nRoute
  vehicle : (h'.core.pt p).vehicle = (h.core.route r).vehicle

theorem buildTrip_run {h : Heap} {r i j : Nat} (t : Nat) (hw : WellFormed h.core r) (hij : i < j)
    (hj : j < (h.core.route r).stops.length) :
    ∃ p u d h', buildTrip E r t i j h = (.ok p, h') ∧ Built E h h' r t i j p u d := by
  set l := (h.core.route r).stops with hl
  have hi : i < l.length := by omega
  have hin : l[i]? = some l[i] := List.getElem?_eq_getElem hi
  set u := h.core.nStop with hu
  set h1 := h.allocStop ⟨(h.core.route r).vehicle, (E.trip t).origin.position, some l[i], [], [], none⟩ with hh1
  have e1 : buildPickup E r t i h = (.ok u, h1) := by
    unfold buildPickup
    simp only [Py.read_bind]
    have : Py.index l i h = (.ok l[i], h) := by simp [Py.index, hin]
    rw [Py.bind_ok this]; rfl
  have r1 : h1.core.route = h.core.route := rfl
  -- the stop before the delivery
  obtain ⟨b, hb, hbm⟩ : ∃ b, previousDelivery l i j u h1 = (.ok b, h1) ∧
      some b = (u :: (l.take j).drop (i + 1)).getLast? := by
    unfold previousDelivery
    by_cases hadj : i + 1 = j
    · rw [if_pos hadj]
      refine ⟨u, rfl, ?_⟩
      rw [← hadj, List.drop_eq_nil_of_le (by simp)]; rfl
    · rw [if_neg hadj]
      have hj1 : l[j - 1]? = some l[j - 1] := List.getElem?_eq_getElem (by omega)
      refine ⟨l[j - 1], by simp [Py.index, hj1], ?_⟩
      have hlen : ((l.take j).drop (i + 1)).length = j - (i + 1) := by simp; omega
      have hne : (l.take j).drop (i + 1) ≠ [] := by
        intro h0; rw [h0] at hlen; simp at hlen; omega
      rw [List.getLast?_cons_of_ne_nil hne, List.getLast?_eq_getElem?, hlen, List.getElem?_drop,
        List.getElem?_take_of_lt (by omega)]
      rw [show i + 1 + (j - (i + 1) - 1) = j - 1 by omega, hj1]
  set d := h1.core.nStop with hd
  have hdu : d = u + 1 := rfl
  set h2 := h1.allocStop ⟨(h.core.route r).vehicle, (E.trip t).destination.position, some b, [], [], none⟩ with hh2
  have e2 : buildDelivery E r t i j u h1 = (.ok d, h2) := by
    unfold buildDelivery
    simp only [Py.read_bind]
    rw [r1, ← hl, Py.bind_ok hb]; rfl
  set p := h.core.nPt with hp
  set h3 := h2.allocPt ⟨(h.core.route r).vehicle, t, some u, some d⟩ with hh3
  set h4 := h3.setStop u { h3.core.stop u with pickups := [p] } with hh4
  set h5 := h4.setStop d { h4.core.stop d with deliveries := [p] } with hh5
  have su2 : h2.core.stop u = ⟨(h.core.route r).vehicle, (E.trip t).origin.position, some l[i], [], [], none⟩ := by
    have : h2.core.stop u = h1.core.stop u := Function.update_of_ne (by omega) _ _
    rw [this]; exact Function.update_self _ _ _
  have sd2 : h2.core.stop d = ⟨(h.core.route r).vehicle, (E.trip t).destination.position, some b, [], [], none⟩ :=
    Function.update_self _ _ _
  have sd3 : h4.core.stop d = h2.core.stop d := Function.update_of_ne (by omega) _ _
  have p3 : h3.core.pt p = ⟨(h.core.route r).vehicle, t, some u, some d⟩ := Function.update_self _ _ _
  have e3 : newPlannedTrip E (h.core.route r).vehicle t (some u) (some d) h2 = (.ok p, h5) := by
    unfold newPlannedTrip
    simp only [Py.read_bind, Py.modify_bind, ifSome]
    have a1 : appendPickup E u h2.core.nPt h3 = (.ok (), h4) := by
      unfold appendPickup
      simp only [Py.read_bind]
      have : (decide ((ptTrip E h3.core h2.core.nPt).origin.position = (h3.core.stop u).position)) = true := by
        have h0 : h3.core.pt h2.core.nPt = ⟨(h.core.route r).vehicle, t, some u, some d⟩ := p3
        have h0' : h3.core.stop u = h2.core.stop u := rfl
        simp [ptTrip, h0, h0', su2]
      rw [this, Py.bind_ok (Py.assert_true h3)]
      have h0 : (h3.core.stop u).pickups = [] := by
        have h0' : h3.core.stop u = h2.core.stop u := rfl
        rw [h0', su2]
      simp only [Py.modify_run, hh4, h0]
      rfl
    have a2 : appendDelivery E d h2.core.nPt h4 = (.ok (), h5) := by
      unfold appendDelivery
      simp only [Py.read_bind]
      have : (decide ((ptTrip E h4.core h2.core.nPt).destination.position = (h4.core.stop d).position)) = true := by
        have h0 : h4.core.pt h2.core.nPt = ⟨(h.core.route r).vehicle, t, some u, some d⟩ := p3
        simp [ptTrip, h0, sd3, sd2]
      rw [this, Py.bind_ok (Py.assert_true h4)]
      have h0 : (h4.core.stop d).deliveries = [] := by rw [sd3, sd2]
      simp only [Py.modify_run, hh5, h0]
      rfl
    rw [Py.bind_ok a1, Py.bind_ok a2]
    rfl
  have run : buildTrip E r t i j h = (.ok p, h5) := by
    unfold buildTrip
    rw [Py.bind_ok e1, Py.bind_ok e2]
    simp only [Py.read_bind]
    have : (h2.core.route r).vehicle = (h.core.route r).vehicle := rfl
    rw [this]
    exact e3
  have s5u : h5.core.stop u = ⟨(h.core.route r).vehicle, (E.trip t).origin.position, some l[i], [p], [], none⟩ := by
    have q1 : h5.core.stop u = h4.core.stop u := Function.update_of_ne (by omega) _ _
    have q2 : h4.core.stop u = { h2.core.stop u with pickups := [p] } := Function.update_self _ _ _
    rw [q1, q2, su2]
  have s5d : h5.core.stop d = ⟨(h.core.route r).vehicle, (E.trip t).destination.position, some b, [], [p], none⟩ := by
    have q1 : h5.core.stop d = { h4.core.stop d with deliveries := [p] } := Function.update_self _ _ _
    rw [q1, sd3, sd2]
  have p5 : h5.core.pt p = ⟨(h.core.route r).vehicle, t, some u, some d⟩ := p3
  have s5 : ∀ x, x < u → h5.core.stop x = h.core.stop x := by
    intro x hx
    have q1 : h5.core.stop x = h4.core.stop x := Function.update_of_ne (by omega) _ _
    have q2 : h4.core.stop x = h2.core.stop x := Function.update_of_ne (by omega) _ _
    have q3 : h2.core.stop x = h1.core.stop x := Function.update_of_ne (by omega) _ _
    have q4 : h1.core.stop x = h.core.stop x := Function.update_of_ne (by omega) _ _
    rw [q1, q2, q3, q4]
  have upd : ∀ {β : Type} (f : Nat → β) (v : β) (x : Nat), x < u →
      Function.update (Function.update f u v) d v x = f x := by
    intro β f v x hx
    rw [Function.update_of_ne (by omega), Function.update_of_ne (by omega)]
  have n5 : h5.core.nStop = u + 2 := rfl
  have m5 : h5.core.nPt = p + 1 := rfl
  have route5 : h5.core.route = h.core.route := rfl
  refine ⟨p, u, d, h5, run, ?_⟩
  have hnu : u ∉ l := fun hm => by have := hw.alloc u hm; omega
  have hnd : d ∉ l := fun hm => by have := hw.alloc d hm; omega
  constructor
  · constructor
    · omega
    · omega
    · exact le_refl _
    · exact s5
    · intro x hx
      exact ⟨upd _ _ x hx, upd _ _ x hx, upd _ _ x hx, upd _ _ x hx⟩
    · intro q hq
      have hne : q ≠ h2.core.nPt := Nat.ne_of_lt hq
      exact ⟨Function.update_of_ne hne _ _, Function.update_of_ne hne _ _⟩
    · intro q _
      exact ⟨rfl, rfl⟩
  · constructor
    · rw [route5, ← hl]
      have h0 : l.take (i + 1) = (l.take j).take (i + 1) := by rw [List.take_take]; congr 1; omega
      rw [h0, List.take_append_drop, List.take_append_drop]
    · intro h0
      have : (l.take (i + 1)).length = i + 1 := by simp; omega
      rw [h0] at this; simp at this
    · intro h0
      have : (l.drop j).length = l.length - j := by simp
      rw [h0] at this; simp at this; omega
    · rw [p5]
    · rw [p5]
    · omega
    · omega
    · omega
    · exact hnu
    · exact hnd
    · omega
    · rw [s5u, route5]
    · rw [s5d, route5]
    · rw [s5u]
    · rw [s5u]
    · rw [s5d]
    · rw [s5d]
    · rw [s5u, List.getLast?_eq_getElem?]
      have : (l.take (i + 1)).length = i + 1 := by simp; omega
      rw [this, Nat.add_sub_cancel, List.getElem?_take_of_lt (by omega), hin]
    · rw [s5d]; exact hbm
  · rw [p5]
  · exact le_refl _
  · show u ≤ d; omega
  · exact le_refl _
  · simp [visitOf, s5u, p5]
  · simp [visitOf, s5d, p5]
  · have : h5.sfeas u = Function.update (Function.update h.sfeas u none) d none u := rfl
    rw [this, Function.update_of_ne (by omega), Function.update_self]
  · exact Function.update_self _ _ _
  · exact Function.update_self _ _ _
  · rfl
  · rw [p5]

/-! ## Writes to objects above a mark -/

/-- A write to objects created after `h0` only, where the family existed in `h0`. -/
theorem keeps_above {R : Nat → Prop} {h0 : Core} {h h' : Heap} (hw : ∀ q, R q → WellFormed h0 q)
    (sc : SameT E R h0 h.core)
    (n1 : h.core.nStop ≤ h'.core.nStop) (n2 : h.core.nPt ≤ h'.core.nPt) (n3 : h.core.nRoute ≤ h'.core.nRoute)
    (hst : ∀ x, x < h0.nStop → h'.core.stop x = h.core.stop x)
    (hca : ∀ x, x < h0.nStop → (h'.arr x = h.arr x ∨ h'.arr x = none) ∧ (h'.dep x = h.dep x ∨ h'.dep x = none) ∧
      (h'.cap x = h.cap x ∨ h'.cap x = none) ∧ (h'.sfeas x = h.sfeas x ∨ h'.sfeas x = none))
    (hpt : ∀ p, p < h0.nPt → h'.core.pt p = h.core.pt p ∧ (h'.pfeas p = h.pfeas p ∨ h'.pfeas p = none))
    (hro : ∀ q, R q → h'.core.route q = h.core.route q ∧ (h'.rfeas q = h.rfeas q ∨ h'.rfeas q = none)) : Keeps R h h' := by
  have m1 : ∀ q, R q → ∀ s ∈ (h.core.route q).stops, s < h0.nStop := by
    intro q hq s hs
    rw [sc.route q hq] at hs
    exact (hw q hq).alloc s hs
  have m2 : ∀ q, R q → ∀ s ∈ (h.core.route q).stops, ∀ p ∈ ptsAt h.core s, p < h0.nPt := by
    intro q hq s hs p hp
    rw [sc.route q hq] at hs
    refine (hw q hq).ptsAt_alloc hs ?_
    unfold ptsAt at *
    rw [sc.stop q hq s hs] at hp
    exact hp
  exact ⟨fun q hq => (hro q hq).2, n1, n2, n3, fun q hq => (hro q hq).1, fun q hq s hs => hst s (m1 q hq s hs),
    fun q hq s hs p hp => (hpt p (m2 q hq s hs p hp)).1, fun q hq s hs => (hca s (m1 q hq s hs)).1,
    fun q hq s hs => (hca s (m1 q hq s hs)).2.1, fun q hq s hs => (hca s (m1 q hq s hs)).2.2.1,
    fun q hq s hs => (hca s (m1 q hq s hs)).2.2.2, fun q hq s hs p hp => (hpt p (m2 q hq s hs p hp)).2⟩

/-! ## Appending the planned trip -/

theorem head_getD_mem {l : List Nat} (h : l ≠ []) : l.head?.getD 0 ∈ l := by
  cases l with
  | nil => exact absurd rfl h
  | cons x l => simp

section
variable {h : Heap} {r p u d : Nat} {pre mid suf : List Nat}

theorem afterAppend_pfeas (hs : suf ≠ []) {x q : Nat} (hx : x ∈ u :: (mid ++ d :: suf)) (hq : q ∈ ptsAt h.core x) :
    (afterAppend h r u d pre mid suf).pfeas q = none := by
  have hms : mid ++ suf ≠ [] := by simp [hs]
  have key : ∀ (h : Heap) (s : Nat) (pre l : List Nat), l ≠ [] → ∀ x q, (x ∈ s :: l ∧ q ∈ ptsAt h.core x) ∨ h.pfeas q = none →
      (afterInsert h r s (l.head?.getD 0) pre l.tail).pfeas q = none := by
    intro h s pre l hl x q hq
    unfold afterInsert
    rw [flushStops_pfeas]
    split
    · rfl
    · rename_i hn
      rcases hq with ⟨hx, hq⟩ | hq
      · exfalso
        apply hn
        rw [head_tail_of_ne hl, List.mem_flatMap]
        refine ⟨x, hx, ?_⟩
        unfold ptsAt at *
        simp only [Heap.setRoute, Heap.setStop, Function.update_apply]
        by_cases hxl : x = l.head?.getD 0
        · simpa [hxl] using hq
        · simpa [hxl] using hq
      · exact hq
  have hpa : ptsAt (afterInsert h r u ((mid ++ suf).head?.getD 0) pre (mid ++ suf).tail).core x = ptsAt h.core x := by
    have := afterInsert_sets h r u ((mid ++ suf).head?.getD 0) pre (mid ++ suf).tail x
    unfold ptsAt
    rw [this.1, this.2.1]
  unfold afterAppend
  refine key _ d _ suf hs x q ?_
  by_cases hxd : x ∈ d :: suf
  · exact .inl ⟨hxd, by rw [hpa]; exact hq⟩
  · refine .inr (key _ u _ (mid ++ suf) hms x q (.inl ⟨?_, hq⟩))
    simp only [List.mem_cons, List.mem_append] at hx hxd ⊢
    tauto

theorem afterAppend_pfeas_or (x : Nat) :
    (afterAppend h r u d pre mid suf).pfeas x = h.pfeas x ∨ (afterAppend h r u d pre mid suf).pfeas x = none := by
  have key : ∀ (h : Heap) (s f : Nat) (pre l : List Nat), (afterInsert h r s f pre l).pfeas x = h.pfeas x ∨
      (afterInsert h r s f pre l).pfeas x = none := by
    intro h s f pre l
    unfold afterInsert
    rw [flushStops_pfeas]
    split
    · exact .inr rfl
    · exact .inl rfl
  unfold afterAppend
  rcases key (afterInsert h r u ((mid ++ suf).head?.getD 0) pre (mid ++ suf).tail) d (suf.head?.getD 0) (pre ++ u :: mid) suf.tail with e | e
  · rw [e]; exact key _ _ _ _ _
  · exact .inr e

end

/-- The route with the planned trip appended. -/
structure Appended (h h' : Heap) (r p u d : Nat) (pre mid suf : List Nat) : Prop where
  stops : (h'.core.route r).stops = pre ++ u :: (mid ++ d :: suf)
  vehicle : (h'.core.route r).vehicle = (h.core.route r).vehicle
  pt : h'.core.pt = h.core.pt
  nStop : h'.core.nStop = h.core.nStop
  nPt : h'.core.nPt = h.core.nPt
  nRoute : h'.core.nRoute = h.core.nRoute
  visit : ∀ x, visitOf h'.core x = visitOf h.core x
  sets : ∀ x, (h'.core.stop x).pickups = (h.core.stop x).pickups ∧ (h'.core.stop x).deliveries = (h.core.stop x).deliveries
  sfeas : h'.sfeas = h.sfeas
  rfeas : h'.rfeas = h.rfeas

theorem append_inv {md : Mode} {R : Nat → Prop} {h0 : Core} {h : Heap} {r p u d : Nat} {pre mid suf : List Nat}
    (hE : EnvOK E) (hw0 : ∀ q, R q → WellFormed h0 q) (sc : SameT E R h0 h.core) (inv : Inv E md (Plus R r) h)
    (hRr : ¬ R r) (hr : Ready h.core r p u d pre mid suf)
    (ht : (h.core.pt p).trip ∉ (itinerary h.core r).flatMap Visit.picks)
    (priv : ∀ s ∈ u :: (mid ++ d :: suf), h0.nStop ≤ s ∧ (∀ q ∈ ptsAt h.core s, h0.nPt ≤ q) ∧ h.sfeas s = none)
    (hrf : h.rfeas r = none) (hsh : 2 ≤ pre.length ∨ ∀ s ∈ pre.head?, h0.nStop ≤ s) :
    ∃ h', appendPlannedTrip E r p h = (.ok (), h') ∧ Inv E md (Plus R r) h' ∧ SameCore R h.core h'.core ∧
      Appended h h' r p u d pre mid suf := by
  have hw := inv.ok.wf r Plus.right
  obtain ⟨h1, h3, run, g1, g3, hc2, ha2⟩ := appendPlannedTrip_run hE hr hw.toChained (inv.agree Plus.right)
  have inv1 := inv.growsV g1.toV
  have hr1 := hr.congr g1.core
  have sc1 : SameT E R h0 h1.core := by rw [g1.core]; exact sc
  set h2 := afterAppend h1 r u d pre mid suf with hh2
  have hs := afterAppend_stops (h := h1) (r := r) (u := u) (d := d) (pre := pre) (mid := mid) hr.suf_ne
  have hw2 : WellFormed h2.core r := hr1.wellFormed (inv1.ok.wf r Plus.right) (inv1.agree Plus.right)
    (by rw [g1.core]; exact ht)
  have low : ∀ x, x < h0.nStop → x ∉ u :: (mid ++ d :: suf) := by
    intro x hx hm
    have := (priv x hm).1
    omega
  have hnd := hw2.nodup
  rw [hs] at hnd
  have prestop : ∀ x ∈ pre, x ∉ u :: (mid ++ d :: suf) := fun x hx hm => (List.disjoint_of_nodup_append hnd) hx hm
  have hstop : ∀ x, x ∉ u :: (mid ++ d :: suf) → h2.core.stop x = h1.core.stop x := by
    intro x hx
    have hms : mid ++ suf ≠ [] := by simp [hr.suf_ne]
    refine afterAppend_previous ?_ ?_
    · rintro rfl
      apply hx
      have h0 : (mid ++ suf).head?.getD 0 ∈ mid ++ suf := head_getD_mem hms
      simp only [List.mem_cons, List.mem_append] at h0 ⊢; tauto
    · rintro rfl
      apply hx
      have h0 : suf.head?.getD 0 ∈ suf := head_getD_mem hr.suf_ne
      simp only [List.mem_cons, List.mem_append] at h0 ⊢; tauto
  have same : ∀ x, x ∉ u :: (mid ++ d :: suf) → SameStop h1 h2 x := fun x hx => afterAppend_same hr.suf_ne hx
  have keep : Keeps R h1 h2 := by
    refine keeps_above hw0 sc1 (by simp [hh2]) (by simp [hh2]) (by simp [hh2]) ?_ ?_ ?_ ?_
    · intro x hx; exact hstop x (low x hx)
    · intro x hx
      have := same x (low x hx)
      exact ⟨.inl this.arr, .inl this.dep, .inl this.cap, .inl (by simp [hh2])⟩
    · intro q _
      exact ⟨by simp [hh2], afterAppend_pfeas_or q⟩
    · intro q hq
      have hne : q ≠ r := by rintro rfl; exact hRr hq
      exact ⟨afterAppend_route_ne hne, .inl (by simp [hh2])⟩
  have inv2 : Inv E md (Plus R r) h2 := by
    have invR := (inv1.subset (R' := R) fun q hq => .inl hq).keeps keep
    refine invR.add hw2 ((cachesAgree_iff hc2).1 ha2) ?_ ?_
    · intro q hq s e1 e2
      rw [hs] at e2
      rcases hsh with h0' | h0'
      · obtain ⟨a, b, t, hpre⟩ : ∃ a b t, pre = a :: b :: t := by
          match pre, h0' with
          | a :: b :: t, _ => exact ⟨a, b, t, rfl⟩
        rw [hs]
        rw [keep.route q hq] at e1 ⊢
        have := inv1.ok.share q (.inl hq) r Plus.right s e1 (by rw [hr1.stops]; rw [hpre] at e2 ⊢; simpa using e2)
        rw [this, hr1.stops, hpre]
        simp
      · exfalso
        have hmem : s ∈ pre.head? := by
          cases hpre : pre with
          | nil => exact absurd hpre hr.pre_ne
          | cons a t => rw [hpre] at e2; simpa using e2
        have h1' := h0' s hmem
        rw [keep.route q hq, sc1.route q hq] at e1
        have := (hw0 q hq).alloc s (List.mem_of_mem_head? e1)
        omega
    · refine verdicts_prefix (inv1.ok.wf r Plus.right) hw2 (inv1.vd.subset fun q hq => .inr hq)
        (by rw [hr1.stops, List.append_assoc]) hs ?_ ?_ ?_ ?_ ?_ ?_ ?_
      · intro x hx
        exact ⟨(same x (prestop x hx)).visit, (afterAppend_sets x).1⟩
      · intro x hx q _; simp [hh2]
      · intro x hx; exact .inl (by simp [hh2])
      · intro x hx q _; exact afterAppend_pfeas_or q
      · intro x hx b hb
        have : h2.sfeas x = h.sfeas x := by simp [hh2, g1.sfeas]
        rw [this, (priv x hx).2.2] at hb; cases hb
      · intro x hx q hq
        refine afterAppend_pfeas hr.suf_ne hx ?_
        unfold ptsAt at *
        rw [(afterAppend_sets x).1, (afterAppend_sets x).2.1] at hq
        exact hq
      · intro b hb
        have : h2.rfeas r = h.rfeas r := by simp [hh2, g1.rfeas]
        rw [this, hrf] at hb; cases hb
  refine ⟨h3, run, inv2.growsV g3.toV, ?_, ?_⟩
  · have := keep.core
    rw [g1.core] at this
    rw [g3.core]; exact this
  · constructor
    · rw [g3.core]; exact hs
    · rw [g3.core, afterAppend_vehicle, g1.core]
    · rw [g3.core, afterAppend_pt, g1.core]
    · rw [g3.core, afterAppend_nStop, g1.core]
    · rw [g3.core, afterAppend_nPt, g1.core]
    · rw [g3.core, afterAppend_nRoute, g1.core]
    · intro x; rw [g3.core, afterAppend_visit, g1.core]
    · intro x; rw [g3.core, (afterAppend_sets x).1, (afterAppend_sets x).2.1, g1.core]; exact ⟨rfl, rfl⟩
    · rw [g3.sfeas, afterAppend_sfeas, g1.sfeas]
    · rw [g3.rfeas, afterAppend_rfeas, g1.rfeas]

end Jinete
