import Verif.Proofs.NewOrigin

/-!
# Reallocation: the loops
-/

set_option autoImplicit false

namespace Jinete

variable {E : Env} {k : Objective} {md : Mode}

/-! ## Values -/

/-- The value of a route does not depend on the requested start of its first stop beyond what departs there. -/
theorem SameT.value {R : Nat → Prop} {c c' : Core} (a : SameT E R c c') {q : Nat} (hq : R q) (hw : WellFormed c q) (k : Objective) :
    routeValue E (E.vehicle (c'.route q).vehicle) (itinerary c' q) k = routeValue E (E.vehicle (c.route q).vehicle) (itinerary c q) k := by
  have hw' := a.wf hq hw
  have hpos : (itinerary c' q).map Visit.pos = (itinerary c q).map Visit.pos := by
    unfold itinerary
    rw [a.route q hq, List.map_map, List.map_map]
    exact List.map_congr_left fun s hs => (a.serve hq hs).pos
  have hpk : (itinerary c' q).flatMap Visit.picks = (itinerary c q).flatMap Visit.picks := a.tripsOf hq
  have hrides : rides E (E.vehicle (c'.route q).vehicle) (itinerary c' q) = rides E (E.vehicle (c.route q).vehicle) (itinerary c q) := by
    rw [hw'.rides_eq, hw.rides_eq, a.planned hq]
    refine List.map_congr_left fun p hp => ?_
    obtain ⟨u, d, pre, mid, suf, e, hu, hd, hpu, hpd⟩ := hw.stops_of hp
    have hus : u ∈ (c.route q).stops := by rw [e]; simp
    have tail : ∀ s ∈ (c.route q).stops, ptsAt c s ≠ [] → s ∈ (c.route q).stops.tail := by
      intro s hs hne
      cases hl : (c.route q).stops with
      | nil => rw [hl] at hs; simp at hs
      | cons x l =>
        rw [hl] at hs
        rcases List.mem_cons.1 hs with rfl | hs
        · have := hw.depot s (by rw [hl]; rfl)
          exact absurd (by simp [ptsAt, this.1, this.2]) hne
        · exact hs
    have tu := a.tm q hq u (tail u hus (List.ne_nil_of_mem (List.mem_append_left _ hpu)))
    have td := a.tm q hq d (tail d (by rw [e]; simp) (List.ne_nil_of_mem (List.mem_append_right _ hpd)))
    have hpp := a.pt q hq u hus p (List.mem_append_left _ hpu)
    unfold rideOf pickStop dropStop
    rw [hpp, hu, hd]
    simp only [Option.getD_some]
    rw [tu.2, td.1]
  cases k with
  | dialARide => simp only [routeValue, hpos, hpk, a.route q hq]
  | taxiSharing => simp only [routeValue, hrides]
  | hashCode => simp only [routeValue, hrides]

/-- The last component of the value of a route. -/
def lastV (E : Env) (k : Objective) (c : Core) (r : Nat) : ℚ :=
  (routeValue E (E.vehicle (c.route r).vehicle) (itinerary c r) k).getLastD 0

theorem SameT.lastV {R : Nat → Prop} {c c' : Core} (a : SameT E R c c') {q : Nat} (hq : R q) (hw : WellFormed c q) :
    Jinete.lastV E k c' q = Jinete.lastV E k c q := by
  unfold Jinete.lastV
  rw [a.value hq hw]

theorem routeValue_last (veh : Vehicle) (l : List Visit) :
    (routeValue E veh l k).getLast? = some ((routeValue E veh l k).getLastD 0) := by
  cases k <;> rfl

theorem lastComponent_eq (c : Core) (rs : List Nat) :
    lastComponent E k (rs.map (planOf E c)) = (rs.map (lastV E k c)).sum := by
  unfold lastComponent planningValue columnSums
  cases k with
  | dialARide =>
    simp only [Objective.dim, List.range, List.range.loop, List.map_cons, List.map_nil, List.map_map]
    rfl
  | taxiSharing =>
    simp only [Objective.dim, List.range, List.range.loop, List.map_cons, List.map_nil, List.map_map]
    rfl
  | hashCode =>
    simp only [Objective.dim, List.range, List.range.loop, List.map_cons, List.map_nil, List.map_map]
    rfl

theorem planningValue_last (l : List (Vehicle × List Visit)) :
    (planningValue E k l).getLast? = some (lastComponent E k l) := by
  unfold lastComponent planningValue columnSums
  cases k <;> rfl

theorem lastValue_run {R : Nat → Prop} {h : Heap} (inv : Inv E md R h) {q : Nat} (hq : R q) :
    ∃ h', lastValue E k (.route q) h = (.ok (lastV E k h.core q), h') ∧ GrowsV E h h' := by
  obtain ⟨h', e, g⟩ := routeValue_run (k := k) inv hq
  refine ⟨h', ?_, g⟩
  unfold lastValue
  rw [Py.bind_ok e, routeValue_last]
  rfl

theorem lastPlanning_run {R : Nat → Prop} {h : Heap} (inv : Inv E md R h) {rs : List Nat} (hrs : ∀ r ∈ rs, R r) :
    ∃ h', lastValue E k (.planning rs) h = (.ok (lastComponent E k (rs.map (planOf E h.core))), h') ∧ GrowsV E h h' := by
  obtain ⟨h', e, g⟩ := planningValue_reads (E := E) (c := h.core) k (fun r hr => inv.ok.wf r (hrs r hr)) h rfl (by
    intro s hs
    obtain ⟨r, hr, hsr⟩ := List.mem_flatMap.1 hs
    exact inv.ok.agree r (hrs r hr) s hsr)
  refine ⟨h', ?_, g.toV⟩
  unfold lastValue
  have e' : k.value E (.planning rs) h = (.ok (planningValue E k (rs.map (planOf E h.core))), h') := e
  rw [Py.bind_ok e', planningValue_last]
  rfl

/-! ## What the loops keep -/

/-- Heap `h'` comes after heap `h` of a pass that started in `h0` with the routes `rs`. -/
structure Along (E : Env) (md : Mode) (R : Nat → Prop) (rs : List Nat) (h0 h h' : Heap) : Prop where
  inv : Inv E md (Upto R h0 h') h'
  same : SameT E (Upto R h0 h) h.core h'.core
  others : SameCore (fun q => Upto R h0 h q ∧ ∀ r ∈ rs, (h.core.route q).stops.head? ≠ (h.core.route r).stops.head?) h.core h'.core

theorem Upto.mono {R : Nat → Prop} {h0 h h' : Heap} (hn : h.core.nRoute ≤ h'.core.nRoute) {q : Nat} (hq : Upto R h0 h q) :
    Upto R h0 h' q := by
  rcases hq with hq | hq
  · exact .inl hq
  · exact .inr ⟨hq.1, by omega⟩

theorem Along.growsV {R : Nat → Prop} {rs : List Nat} {h0 h h' : Heap} (inv : Inv E md (Upto R h0 h) h) (g : GrowsV E h h') :
    Along E md R rs h0 h h' := by
  refine ⟨(inv.growsV g).subset fun q hq => ?_, ?_, SameCore.of_eq g.core⟩
  · rcases hq with hq | hq
    · exact .inl hq
    · exact .inr ⟨hq.1, by rw [← g.core]; exact hq.2⟩
  · rw [g.core]; exact SameT.refl _

theorem Along.trans {R : Nat → Prop} {rs : List Nat} {h0 h h1 h2 : Heap} (hrs : ∀ r ∈ rs, R r) (a : Along E md R rs h0 h h1)
    (b : Along E md R rs h0 h1 h2) : Along E md R rs h0 h h2 := by
  refine ⟨b.inv, a.same.trans (b.same.subset fun q hq => hq.mono a.same.nRoute), a.others.trans (b.others.subset ?_)⟩
  rintro q ⟨h1, h2⟩
  refine ⟨h1.mono a.same.nRoute, fun r hr => ?_⟩
  rw [a.same.route q h1, a.same.route r (.inl (hrs r hr))]
  exact h2 r hr

/-- What is known about the best move so far: none, or one that is worth more than `base`. -/
inductive BestMove (E : Env) (k : Objective) (md : Mode) (R : Nat → Prop) (rs : List Nat) (base : ℚ) (h0 h : Heap) (f : Found) : Prop
  | none : f = ⟨base, []⟩ → BestMove E k md R rs base h0 h f
  | move (o d t i j n m : Nat) (ho : o ∈ rs) (hd : d ∈ rs) (hod : o ≠ d) (ht : t ∈ tripsOf h0.core o) (hij : i < j)
      (hj : j < (duties h0.core d).length) (over : f.overwritten = [n, m]) (better : base < f.best)
      (val : f.best = base - lastV E k h0.core o - lastV E k h0.core d + lastV E k h.core n + lastV E k h.core m)
      (hnm : n ≠ m) (hn : h0.core.nRoute ≤ n ∧ n < h.core.nRoute) (hm : h0.core.nRoute ≤ m ∧ m < h.core.nRoute)
      (vn : (h.core.route n).vehicle = (h0.core.route o).vehicle) (vm : (h.core.route m).vehicle = (h0.core.route d).vehicle)
      (dn : duties h.core n = withoutTrip t (duties h0.core o)) (dm : duties h.core m = withTrip E t i j (duties h0.core d))
      (headn : ∀ r ∈ rs, (h.core.route n).stops.head? ≠ (h.core.route r).stops.head?)
      (fn : FeasibleItinerary E (E.vehicle (h.core.route n).vehicle) (itinerary h.core n))
      (fm : RouteVerdict E md h.core m true) : BestMove E k md R rs base h0 h f

theorem BestMove.along {R : Nat → Prop} {rs : List Nat} {base : ℚ} {h0 h h' : Heap} {f : Found} (hrs : ∀ r ∈ rs, R r)
    (inv : Inv E md (Upto R h0 h) h) (a : Along E md R rs h0 h h') (b : BestMove E k md R rs base h0 h f) :
    BestMove E k md R rs base h0 h' f := by
  cases b with
  | none e => exact .none e
  | move o d t i j n m ho hd hod ht hij hj over better val hnm hn hm vn vm dn dm headn fn fm =>
    have un : Upto R h0 h n := .inr hn
    have um : Upto R h0 h m := .inr hm
    refine .move o d t i j n m ho hd hod ht hij hj over better ?_ hnm ⟨hn.1, hn.2.trans_le a.same.nRoute⟩
      ⟨hm.1, hm.2.trans_le a.same.nRoute⟩ ?_ ?_ ?_ ?_ ?_ ?_ ?_
    · rw [a.same.lastV un (inv.ok.wf n un), a.same.lastV um (inv.ok.wf m um)]; exact val
    · rw [a.same.route n un]; exact vn
    · rw [a.same.route m um]; exact vm
    · rw [a.same.duties un]; exact dn
    · rw [a.same.duties um]; exact dm
    · intro r hr
      rw [a.same.route n un, a.same.route r (.inl (hrs r hr))]; exact headn r hr
    · rw [a.same.route n un, a.others.itinerary (q := n) ⟨un, headn⟩]; exact fn
    · exact fm.transfer a.same um (inv.ok.wf m um)

/-! ## The loop over index pairs -/

theorem compute_along (hE : EnvOK E) (hx : md = .exact → ∀ t, (E.trip t).timeout = .inf) {R : Nat → Prop} {rs : List Nat}
    {h0 h : Heap} (h00 : h0.core.nRoute ≤ h.core.nRoute) (inv : Inv E md (Upto R h0 h) h) {d t i j : Nat} (hd : R d) (hds : d ∈ rs) (hij : i < j)
    (hj : j < (h.core.route d).stops.length) (ht : t ∉ tripsOf h.core d) :
    ∃ m b h', compute E true d [t] i j h = (.ok (if b = true then [m] else []), h') ∧ Along E md R rs h0 h h' ∧
      (h0.core.nRoute ≤ m ∧ m < h'.core.nRoute) ∧ h.core.nRoute ≤ m ∧ (h'.core.route m).vehicle = (h.core.route d).vehicle ∧
      duties h'.core m = withTrip E t i j (duties h.core d) ∧ RouteVerdict E md h'.core m b := by
  obtain ⟨cand, h', e, ba⟩ := compute_run hE hx true inv (.inl hd) [t] hij hj (by simpa using ht)
  have hid := ba.ids
  match cand, hid with
  | [], h => simp at h
  | _ :: _ :: _, h => simp at h
  | [(m, b)], hid =>
    have hm : m = h.core.nRoute := by simpa using hid
    have hn := ba.nRoute
    simp at hn
    refine ⟨m, b, h', ?_, ⟨ba.inv.subset fun q hq => hq.trans, ba.same, ba.others.subset fun q hq => ⟨hq.1, hq.2 d hds⟩⟩,
      ⟨by omega, by omega⟩, by omega, ba.vehicle (m, b) (by simp), ?_, ba.judged (m, b) (by simp)⟩
    · rw [e]
      cases b <;> rfl
    · have := ba.duties
      simpa using this

theorem reallocPairs_run (hE : EnvOK E) (hx : md = .exact → ∀ t, (E.trip t).timeout = .inf) {R : Nat → Prop} {rs : List Nat}
    (hrs : ∀ r ∈ rs, R r) {base : ℚ} {h0 : Heap} {o d t n : Nat} (ho : o ∈ rs) (hd : d ∈ rs) (hod : o ≠ d)
    (hto : t ∈ tripsOf h0.core o) (htd : t ∉ tripsOf h0.core d) :
    ∀ (ps : List (Nat × Nat)) (f : Found) {h : Heap} {part : ℚ}, (∀ x ∈ ps, x.1 < x.2 ∧ x.2 < (h0.core.route d).stops.length) →
      Inv E md (Upto R h0 h) h → SameT E R h0.core h.core → BestMove E k md R rs base h0 h f →
      (h0.core.nRoute ≤ n ∧ n < h.core.nRoute) → (h.core.route n).vehicle = (h0.core.route o).vehicle →
      duties h.core n = withoutTrip t (duties h0.core o) →
      (∀ r ∈ rs, (h.core.route n).stops.head? ≠ (h.core.route r).stops.head?) →
      FeasibleItinerary E (E.vehicle (h.core.route n).vehicle) (itinerary h.core n) →
      part = base - lastV E k h0.core o - lastV E k h0.core d + lastV E k h.core n →
      base ≤ f.best →
      ∃ f' h', reallocPairs E k d t n part ps f h = (.ok f', h') ∧ Along E md R rs h0 h h' ∧ BestMove E k md R rs base h0 h' f' ∧
        f.best ≤ f'.best := by
  intro ps
  induction ps with
  | nil =>
    intro f h part _ inv _ bm _ _ _ _ _ _ _
    exact ⟨f, h, rfl, Along.growsV inv (GrowsV.refl h), bm, le_refl _⟩
  | cons x ps ih =>
    obtain ⟨i, j⟩ := x
    intro f h part hps inv st bm hn vn dn headn fn hpart hbase
    obtain ⟨hij, hj⟩ := hps (i, j) (by simp)
    obtain ⟨m, b, h1, e1, a1, hm, hm', vm, dm, jm⟩ := compute_along hE hx (rs := rs) st.nRoute inv (hrs d hd) hd hij
      (by rw [st.route d (hrs d hd)]; exact hj) (t := t) (by rw [st.tripsOf (hrs d hd)]; exact htd)
    have st1 : SameT E R h0.core h1.core := st.trans (a1.same.subset fun q hq => .inl hq)
    have un : Upto R h0 h n := .inr hn
    have bm1 := bm.along hrs inv a1
    have wn := inv.ok.wf n un
    -- the rest of the loop from a later heap
    have rest : ∀ (f1 : Found) (h2 : Heap), Along E md R rs h0 h h2 → BestMove E k md R rs base h0 h2 f1 → f.best ≤ f1.best →
        ∃ f' h', reallocPairs E k d t n part ps f1 h2 = (.ok f', h') ∧ Along E md R rs h0 h h' ∧
          BestMove E k md R rs base h0 h' f' ∧ f.best ≤ f'.best := by
      intro f1 h2 a2 b2 hf
      obtain ⟨f', h', e', a', b', hl⟩ := ih f1 (h := h2) (part := part) (fun x hx => hps x (by simp [hx])) a2.inv
        (st.trans (a2.same.subset fun q hq => .inl hq)) b2 ⟨hn.1, hn.2.trans_le a2.same.nRoute⟩
        (by rw [a2.same.route n un]; exact vn) (by rw [a2.same.duties un]; exact dn)
        (by intro r hr; rw [a2.same.route n un, a2.same.route r (.inl (hrs r hr))]; exact headn r hr)
        (by rw [a2.same.route n un, a2.others.itinerary (q := n) ⟨un, headn⟩]; exact fn)
        (by rw [a2.same.lastV un wn]; exact hpart) (hbase.trans hf)
      exact ⟨f', h', e', a2.trans hrs a', b', hf.trans hl⟩
    cases b with
    | false =>
      obtain ⟨f', h', e', a', b', hl⟩ := rest f h1 a1 bm1 (le_refl _)
      refine ⟨f', h', ?_, a', b', hl⟩
      rw [reallocPairs, Py.bind_ok e1]
      exact e'
    | true =>
      obtain ⟨h2, e2, g2⟩ := lastValue_run (k := k) a1.inv (.inr hm)
      have a2 : Along E md R rs h0 h h2 := a1.trans hrs (Along.growsV a1.inv g2)
      have bm2 : BestMove E k md R rs base h0 h2
          (if f.best < part + lastV E k h1.core m then ⟨part + lastV E k h1.core m, [n, m]⟩ else f) := by
        by_cases hc : f.best < part + lastV E k h1.core m
        · rw [if_pos hc]
          refine .move o d t i j n m ho hd hod hto hij ?_ rfl (lt_of_le_of_lt hbase hc) ?_ ?_ ⟨hn.1, hn.2.trans_le a2.same.nRoute⟩ ?_
            ?_ ?_ ?_ ?_ ?_ ?_ ?_
          · unfold duties itinerary; simpa using hj
          · simp only
            rw [hpart, a2.same.lastV un wn, g2.core]
          · have := hn.2; omega
          · rw [g2.core]; exact hm
          · rw [a2.same.route n un]; exact vn
          · rw [g2.core, vm, st.route d (hrs d hd)]
          · rw [a2.same.duties un]; exact dn
          · rw [g2.core, dm, st.duties (hrs d hd)]
          · intro r hr; rw [a2.same.route n un, a2.same.route r (.inl (hrs r hr))]; exact headn r hr
          · rw [a2.same.route n un, a2.others.itinerary (q := n) ⟨un, headn⟩]; exact fn
          · rw [g2.core]; exact jm
        · rw [if_neg hc]
          exact bm.along hrs inv a2
      obtain ⟨f', h', e', a', b', hl⟩ := rest _ h2 a2 bm2 (by split <;> [exact le_of_lt ‹_›; exact le_refl _])
      refine ⟨f', h', ?_, a', b', hl⟩
      rw [reallocPairs, Py.bind_ok e1]
      simp only [if_true]
      rw [Py.bind_ok e2]
      exact e'

/-! ## The loop over trips -/

theorem reallocTrips_run (hE : EnvOK E) (hx : md = .exact → ∀ t, (E.trip t).timeout = .inf) {R : Nat → Prop} {rs : List Nat}
    (hrs : ∀ r ∈ rs, R r) {base : ℚ} {h0 : Heap} (hw0 : ∀ r, R r → WellFormed h0.core r) {o d : Nat} (ho : o ∈ rs) (hd : d ∈ rs)
    (hod : o ≠ d) (hsv : SingleVisits (duties h0.core o)) {draw : Nat → Nat → Option (List (Nat × Nat))} (hdr : GoodDraws draw) {part : ℚ}
    (hpart : part = base - lastV E k h0.core o - lastV E k h0.core d) :
    ∀ (ts : List Nat) (f : Found) (calls : Nat) {h : Heap},
      (∀ t ∈ ts, t ∈ tripsOf h0.core o ∧ t ∉ tripsOf h0.core d) →
      Inv E md (Upto R h0 h) h → SameT E R h0.core h.core → BestMove E k md R rs base h0 h f → base ≤ f.best →
      ∃ f' calls' h', (∀ draw', (∀ c, draw' c (h0.core.route d).stops.length = draw c (h0.core.route d).stops.length) →
          reallocTrips E k draw' o d part ts f calls h = (.ok (f', calls'), h')) ∧ Along E md R rs h0 h h' ∧
        BestMove E k md R rs base h0 h' f' ∧ f.best ≤ f'.best := by
  intro ts
  induction ts with
  | nil =>
    intro f calls h _ inv _ bm _
    exact ⟨f, calls, h, fun _ _ => rfl, Along.growsV inv (GrowsV.refl h), bm, le_refl _⟩
  | cons t ts ih =>
    intro f calls h hts inv st bm hbase
    obtain ⟨hto, htd⟩ := hts t (by simp)
    have hRo := hrs o ho
    have hRd := hrs d hd
    obtain ⟨n, b, h1, h2, h3, h4, e1, e2, e3, e4, no⟩ := newOrigin_run hE inv (.inl hRo) (t := t)
      (by rw [st.duties hRo]; exact hsv) (by rw [st.tripsOf hRo]; exact hto)
    have hnn := no.new
    have hnr := no.nRoute
    have hh0 := st.nRoute
    have a4 : Along E md R rs h0 h h4 := by
      refine ⟨no.inv.subset ?_, SameT.of_core no.same inv.ok.wf, no.same.subset fun q hq => hq.1⟩
      rintro q (hq | hq)
      · exact .inl (.inl hq)
      · by_cases h0 : q = n
        · exact .inr h0
        · exact .inl (.inr ⟨hq.1, by omega⟩)
    have rest : ∀ (f1 : Found) (c1 : Nat) (h5 : Heap), Along E md R rs h0 h h5 → BestMove E k md R rs base h0 h5 f1 → f.best ≤ f1.best →
        ∃ f' calls' h', (∀ draw', (∀ c, draw' c (h0.core.route d).stops.length = draw c (h0.core.route d).stops.length) →
          reallocTrips E k draw' o d part ts f1 c1 h5 = (.ok (f', calls'), h')) ∧ Along E md R rs h0 h h' ∧
          BestMove E k md R rs base h0 h' f' ∧ f.best ≤ f'.best := by
      intro f1 c1 h5 a5 b5 hf
      obtain ⟨f', c', h', e', a', b', hl⟩ := ih f1 c1 (h := h5) (fun x hx => hts x (by simp [hx])) a5.inv
        (st.trans (a5.same.subset fun q hq => .inl hq)) b5 (hbase.trans hf)
      exact ⟨f', c', h', e', a5.trans hrs a', b', hf.trans hl⟩
    have bm4 := bm.along hrs inv a4
    cases b with
    | false =>
      obtain ⟨f', c', h', e', a', b', hl⟩ := rest f calls h4 a4 bm4 (le_refl _)
      refine ⟨f', c', h', fun draw' hdraw => ?_, a', b', hl⟩
      rw [reallocTrips, Py.bind_ok e1, Py.bind_ok e2, Py.bind_ok e3, Py.bind_ok e4]
      exact e' draw' hdraw
    | true =>
      have un : Upto R h0 h4 n := .inr ⟨by omega, by omega⟩
      obtain ⟨h5, e5, g5⟩ := lastValue_run (k := k) a4.inv un
      have a5 : Along E md R rs h0 h h5 := a4.trans hrs (Along.growsV a4.inv g5)
      have st5 : SameT E R h0.core h5.core := st.trans (a5.same.subset fun q hq => .inl hq)
      have e6 : routeStops d h5 = (.ok (h0.core.route d).stops, h5) := by
        unfold routeStops
        simp only [Py.read_bind]
        rw [st5.route d hRd]
        rfl
      obtain ⟨ps, hps1, hps2⟩ := hdr calls (h0.core.route d).stops.length (hw0 d hRd).length
      have headn : ∀ r ∈ rs, (h5.core.route n).stops.head? ≠ (h5.core.route r).stops.head? := by
        intro r hr heq
        have w := a5.inv.ok.wf n (.inr ⟨by omega, by rw [g5.core]; omega⟩)
        cases hl : (h5.core.route n).stops with
        | nil => have := w.length; rw [hl] at this; simp at this
        | cons s l =>
          rw [hl] at heq
          have h7 : s ∈ (h.core.route r).stops := by
            rw [← a5.same.route r (.inl (hrs r hr))]
            exact List.mem_of_mem_head? heq.symm
          have h8 := (inv.ok.wf r (.inl (hrs r hr))).alloc s h7
          have h9 := no.fresh s (by rw [← g5.core, hl]; simp)
          omega
      obtain ⟨f1, h6, e7, a7, b7, hl7⟩ := reallocPairs_run (k := k) hE hx hrs ho hd hod hto htd ps f (h := h5)
        (part := part + lastV E k h4.core n) hps2 a5.inv st5 (bm.along hrs inv a5) (n := n)
        ⟨by omega, by rw [g5.core]; omega⟩ (by rw [g5.core, no.vehicle, st.route o hRo]) (by rw [g5.core, no.duties, st.duties hRo])
        headn (by rw [g5.core]; exact no.feasible rfl) (by rw [g5.core, hpart]) hbase
      obtain ⟨f', c', h', e', a', b', hl⟩ := rest f1 (calls + 1) h6 (a5.trans hrs a7) b7 hl7
      refine ⟨f', c', h', fun draw' hdraw => ?_, a', b', hl⟩
      rw [reallocTrips, Py.bind_ok e1, Py.bind_ok e2, Py.bind_ok e3, Py.bind_ok e4]
      simp only [if_true]
      rw [Py.bind_ok e5, Py.bind_ok e6, hdraw, hps1]
      simp only
      rw [Py.bind_ok e7]
      exact e' draw' hdraw

/-! ## The loop over pairs of routes -/

theorem reallocRoutes_run (hE : EnvOK E) (hx : md = .exact → ∀ t, (E.trip t).timeout = .inf) {R : Nat → Prop} {rs : List Nat}
    (hrs : ∀ r ∈ rs, R r) {base : ℚ} {h0 : Heap} (hw0 : ∀ r, R r → WellFormed h0.core r)
    (hsv : ∀ r ∈ rs, SingleVisits (duties h0.core r)) (hds : ∀ o ∈ rs, ∀ d ∈ rs, o ≠ d → ∀ t ∈ tripsOf h0.core o, t ∉ tripsOf h0.core d)
    {draw : Nat → Nat → Option (List (Nat × Nat))} (hdr : GoodDraws draw) :
    ∀ (ps : List (Nat × Nat)) (f : Found) (calls : Nat) {h : Heap},
      (∀ x ∈ ps, x.1 ∈ rs ∧ x.2 ∈ rs ∧ x.1 ≠ x.2) →
      Inv E md (Upto R h0 h) h → SameT E R h0.core h.core → BestMove E k md R rs base h0 h f → base ≤ f.best →
      ∃ f' calls' h', (∀ draw', (∀ r ∈ rs, ∀ c, draw' c (h0.core.route r).stops.length = draw c (h0.core.route r).stops.length) →
          reallocRoutes E k draw' base ps f calls h = (.ok (f', calls'), h')) ∧ Along E md R rs h0 h h' ∧
        BestMove E k md R rs base h0 h' f' := by
  intro ps
  induction ps with
  | nil =>
    intro f calls h _ inv _ bm _
    exact ⟨f, calls, h, fun _ _ => rfl, Along.growsV inv (GrowsV.refl h), bm⟩
  | cons x ps ih =>
    obtain ⟨o, d⟩ := x
    intro f calls h hps inv st bm hbase
    obtain ⟨ho, hd, hod⟩ := hps (o, d) (by simp)
    have hRo := hrs o ho
    have hRd := hrs d hd
    obtain ⟨h1, e1, g1⟩ := lastValue_run (k := k) inv (.inl hRo)
    have a1 : Along E md R rs h0 h h1 := Along.growsV inv g1
    obtain ⟨h2, e2, g2⟩ := lastValue_run (k := k) a1.inv (.inl hRd)
    have a2 : Along E md R rs h0 h h2 := a1.trans hrs (Along.growsV a1.inv g2)
    have st2 : SameT E R h0.core h2.core := st.trans (a2.same.subset fun q hq => .inl hq)
    obtain ⟨f1, c1, h3, e3, a3, b3, hl3⟩ := reallocTrips_run (k := k) hE hx hrs hw0 ho hd hod (hsv o ho) hdr
      (part := base - lastV E k h.core o - lastV E k h1.core d)
      (by rw [g1.core, st.lastV hRo (hw0 o hRo), st.lastV hRd (hw0 d hRd)]) (routeTrips h2.core o) f calls (h := h2)
      (by
        intro t ht
        rw [← tripsOf_eq, st2.tripsOf hRo] at ht
        exact ⟨ht, hds o ho d hd hod t ht⟩) a2.inv st2 (bm.along hrs inv a2) hbase
    obtain ⟨f', c', h', e', a', b'⟩ := ih f1 c1 (h := h3) (fun x hx => hps x (by simp [hx])) a3.inv
      (st2.trans (a3.same.subset fun q hq => .inl hq)) b3 (hbase.trans hl3)
    refine ⟨f', c', h', fun draw' hdraw => ?_, (a2.trans hrs a3).trans hrs a', b'⟩
    rw [reallocRoutes, Py.bind_ok e1, Py.bind_ok e2]
    simp only [Py.read_bind]
    rw [Py.bind_ok (e3 draw' (hdraw d hd))]
    exact e' draw' hdraw

theorem mem_permutations2 {l : List Nat} {x : Nat × Nat} (h : x ∈ permutations2 l) : x.1 ∈ l ∧ x.2 ∈ l ∧ x.1 ≠ x.2 := by
  unfold permutations2 at h
  obtain ⟨a, ha, h⟩ := List.mem_flatMap.1 h
  obtain ⟨b, hb, rfl⟩ := List.mem_map.1 h
  obtain ⟨hb1, hb2⟩ := List.mem_filter.1 hb
  exact ⟨ha, hb1, fun e => of_decide_eq_true hb2 e.symm⟩

/-- A pass of reallocation: either the routes as they were, or two of them replaced. -/
theorem reallocation_run (hE : EnvOK E) (hx : md = .exact → ∀ t, (E.trip t).timeout = .inf) {R : Nat → Prop} {rs : List Nat}
    {h : Heap} (inv : Inv E md R h) (hrs : ∀ r ∈ rs, R r)
    (hsv : ∀ r ∈ rs, SingleVisits (duties h.core r)) (hds : ∀ o ∈ rs, ∀ d ∈ rs, o ≠ d → ∀ t ∈ tripsOf h.core o, t ∉ tripsOf h.core d)
    {draw : Nat → Nat → Option (List (Nat × Nat))} (hdr : GoodDraws draw) :
    ∃ f h' l, (∀ draw', (∀ r ∈ rs, ∀ c, draw' c (h.core.route r).stops.length = draw c (h.core.route r).stops.length) →
        reallocation E k draw' rs h = (.ok l, h')) ∧ Along E md R rs h h h' ∧
      BestMove E k md R rs (lastComponent E k (rs.map (planOf E h.core))) h h' f ∧
      l = (rs.filter fun r => decide ((h'.core.route r).vehicle ∉ vehiclesOf h'.core f.overwritten)) ++ f.overwritten := by
  have inv0 : Inv E md (Upto R h h) h := inv.subset (by rintro q (hq | hq); exacts [hq, by omega])
  obtain ⟨h1, e1, g1⟩ := lastPlanning_run (k := k) inv hrs
  have a1 : Along E md R rs h h h1 := Along.growsV inv0 g1
  obtain ⟨f, c, h2, e2, a2, b2⟩ := reallocRoutes_run (k := k) hE hx hrs (base := lastComponent E k (rs.map (planOf E h.core)))
    inv.ok.wf hsv hds hdr (permutations2 rs) ⟨lastComponent E k (rs.map (planOf E h.core)), []⟩ 0 (h := h1)
    (fun x hx => mem_permutations2 hx) a1.inv (a1.same.subset fun q hq => .inl hq) (.none rfl) (le_refl _)
  obtain ⟨l, el, hl⟩ := updateRoutes_run rs f.overwritten h2
  refine ⟨f, h2, l, fun draw' hdraw => ?_, a1.trans hrs a2, b2, hl⟩
  unfold reallocation
  rw [Py.bind_ok e1, Py.bind_ok (e2 draw' hdraw)]
  exact el

end Jinete
