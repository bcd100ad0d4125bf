import Verif.Proofs.Compute

/-!
# Several insertions in a row
-/

set_option autoImplicit false

namespace Jinete

variable {E : Env}

theorem SameT.duties {R : Nat → Prop} {c c' : Core} (a : SameT E R c c') {q : Nat} (hq : R q) : duties c' q = duties c q := by
  unfold Jinete.duties itinerary
  rw [a.route q hq, List.map_map, List.map_map]
  exact List.map_congr_left fun s hs => visit_duty (a.serve hq hs)

theorem SameT.tripsOf {R : Nat → Prop} {c c' : Core} (a : SameT E R c c') {q : Nat} (hq : R q) : tripsOf c' q = tripsOf c q := by
  rw [picks_duties, picks_duties, a.duties hq]

theorem RouteVerdict.transfer {R : Nat → Prop} {c c' : Core} {md : Mode} {q : Nat} {b : Bool} (v : RouteVerdict E md c q b)
    (a : SameT E R c c') (hq : R q) (hw : WellFormed c q) : RouteVerdict E md c' q b :=
  ⟨fun hm h0 => by rw [a.ends hq hw]; exact v.ends hm h0, fun h0 p hpm =>
    a.ptVerdict hq hw (by rw [← a.planned hq]; exact hpm) (v.trips h0 p (by rw [← a.planned hq]; exact hpm))⟩

theorem Judged.verdict {md : Mode} {h : Heap} {r : Nat} {b : Bool} (j : Judged E md h r b) :
    RouteVerdict E md h.core r b := ⟨fun _ hb => endsV_of_vehV (j.vehicle hb), j.trips⟩

/-- One candidate after the other: the common loop of the strategies. -/
def insertAll (E : Env) (onlyFeasible : Bool) (r : Nat) : List (Nat × Nat × Nat) → M (List Nat)
  | [] => pure []
  | (t, i, j) :: l => do
    let r' ← computeOne E r t i j
    let keep ← keepRoute E onlyFeasible r'
    let rs ← insertAll E onlyFeasible r l
    pure (if keep then r' :: rs else rs)

theorem computeEach_eq (f : Bool) (r i j : Nat) (ts : List Nat) :
    computeEach E f r i j ts = insertAll E f r (ts.map fun t => (t, i, j)) := by
  induction ts with
  | nil => rfl
  | cons t ts ih => simp only [computeEach, List.map_cons, insertAll, ih]

theorem insertAll_append (f : Bool) (r : Nat) (a b : List (Nat × Nat × Nat)) (h : Heap) :
    insertAll E f r (a ++ b) h = (insertAll E f r a >>= fun x => insertAll E f r b >>= fun y => pure (x ++ y)) h := by
  induction a generalizing h with
  | nil =>
    simp only [List.nil_append, insertAll, Py.pure_bind]
    simp only [Py.bind_run]
    cases insertAll E f r b h with
    | mk x h' => cases x <;> rfl
  | cons x a ih =>
    obtain ⟨t, i, j⟩ := x
    simp only [List.cons_append, insertAll, Py.bind_run]
    cases computeOne E r t i j h with
    | mk x h1 =>
      cases x with
      | error e => rfl
      | ok r' =>
        simp only
        cases keepRoute E f r' h1 with
        | mk k h2 =>
          cases k with
          | error e => rfl
          | ok k =>
            simp only [ih, Py.bind_run]
            cases insertAll E f r a h2 with
            | mk x h3 =>
              cases x with
              | error e => rfl
              | ok xs =>
                simp only [Py.pure_run]
                cases insertAll E f r b h3 with
                | mk y h4 =>
                  cases y with
                  | error e => rfl
                  | ok ys => cases k <;> rfl

theorem computePairs_eq (f : Bool) (r : Nat) (ts : List Nat) (ps : List (Nat × Nat)) (hp : ∀ x ∈ ps, x.1 < x.2) (h : Heap) :
    computePairs E f r ts ps h = insertAll E f r (ps.flatMap fun x => ts.map fun t => (t, x.1, x.2)) h := by
  induction ps generalizing h with
  | nil => rfl
  | cons x ps ih =>
    obtain ⟨i, j⟩ := x
    have hij : i < j := hp (i, j) (by simp)
    rw [List.flatMap_cons, insertAll_append]
    simp only [computePairs, compute]
    have : decide (i < j) = true := by simpa using hij
    rw [this, Py.bind_assoc_run, Py.bind_ok (Py.assert_true h), computeEach_eq]
    simp only [Py.bind_run]
    cases insertAll E f r (ts.map fun t => (t, i, j)) h with
    | mk a h1 =>
      cases a with
      | error e => rfl
      | ok a =>
        simp only [ih (fun x hx => hp x (by simp [hx]))]

/-- The family together with the routes created in between. -/
def Upto (R : Nat → Prop) (h h' : Heap) : Nat → Prop := fun q => R q ∨ (h.core.nRoute ≤ q ∧ q < h'.core.nRoute)

/-- Nobody waits at the second stop of the route. -/
def Calm (E : Env) (c : Core) (r : Nat) : Prop := ∀ s ∈ (c.route r).stops[1]?, (tmAt E c s).start = (tmAt E c s).arr

/-- What a series of insertions yields; a candidate is a route and its verdict. -/
structure Batch (E : Env) (md : Mode) (R : Nat → Prop) (h h' : Heap) (r : Nat) (l : List (Nat × Nat × Nat))
    (cand : List (Nat × Bool)) : Prop where
  inv : Inv E md (Upto R h h') h'
  nRoute : h'.core.nRoute = h.core.nRoute + l.length
  same : SameT E R h.core h'.core
  ids : cand.map Prod.fst = List.range' h.core.nRoute l.length
  duties : cand.map (fun c => duties h'.core c.1) = l.map fun x => withTrip E x.1 x.2.1 x.2.2 (duties h.core r)
  vehicle : ∀ c ∈ cand, (h'.core.route c.1).vehicle = (h.core.route r).vehicle
  judged : ∀ c ∈ cand, RouteVerdict E md h'.core c.1 c.2
  core : ((∀ x ∈ l, x.2.1 ≤ 1) ∨ Calm E h.core r) → SameCore R h.core h'.core
  apart : SameCore (fun q => R q ∧ (h.core.route q).vehicle ≠ (h.core.route r).vehicle) h.core h'.core
  others : SameCore (fun q => R q ∧ (h.core.route q).stops.head? ≠ (h.core.route r).stops.head?) h.core h'.core
  kept : ∀ q b, R q → h.rfeas q = some b → h'.rfeas q = some b
  memo : ∀ c ∈ cand, h'.rfeas c.1 = some c.2
  owner : ∀ c ∈ cand, ∀ p ∈ routePlannedTrips h'.core c.1, (h'.core.pt p).trip ∉ tripsOf h.core r →
    (h'.core.pt p).vehicle = (h.core.route r).vehicle
  verdict : md = .exact → (l.length ≤ 1 ∨ (∀ x ∈ l, x.2.1 ≤ 1) ∨ Calm E h.core r) → ∀ y ∈ cand.zip l,
    (y.1.2 = true ↔ FeasibleItinerary E (E.vehicle (h.core.route r).vehicle)
      (postponed E (E.vehicle (h.core.route r).vehicle) (withVisits E y.2.1 y.2.2.1 y.2.2.2 (itinerary h.core r))))

theorem insertAll_run {md : Mode} (hE : EnvOK E) (hx : md = .exact → ∀ t, (E.trip t).timeout = .inf) (f : Bool) {r : Nat} :
    ∀ (l : List (Nat × Nat × Nat)) {R : Nat → Prop} {h : Heap}, Inv E md R h → R r →
      (∀ x ∈ l, x.2.1 < x.2.2 ∧ x.2.2 < (h.core.route r).stops.length ∧ x.1 ∉ tripsOf h.core r) →
      ∃ cand h', insertAll E f r l h = (.ok ((cand.filter fun c => !f || c.2).map Prod.fst), h') ∧
        Batch E md R h h' r l cand := by
  intro l
  induction l with
  | nil =>
    intro R h inv _ _
    refine ⟨[], h, rfl, inv.subset ?_, rfl, SameT.refl _, rfl, rfl, by simp, by simp, fun _ => SameCore.refl _,
      SameCore.refl _, SameCore.refl _, fun _ _ _ h => h, by simp, by simp, by simp⟩
    rintro q (hq | hq)
    · exact hq
    · omega
  | cons x l ih =>
    intro R h inv hr hl
    obtain ⟨t, i, j⟩ := x
    obtain ⟨k1, k2, k3⟩ := hl (t, i, j) (by simp)
    obtain ⟨r', b, h1, e1, o⟩ := computeOne_run hE inv hr k1 k2 k3 hx
    have hk : ∃ h2, keepRoute E f r' h1 = (.ok (!f || b), h2) ∧ GrowsV E h1 h2 := by
      unfold keepRoute
      cases f with
      | false => exact ⟨h1, rfl, GrowsV.refl _⟩
      | true =>
        obtain ⟨h2, e, g, _⟩ := routeFeasible_memo hE (o.inv.ok.wf r' Plus.right) rfl (o.inv.ok.agree r' Plus.right)
        have : effR E h1 r' = b := by simp [effR, o.judged.memo]
        rw [this] at e
        exact ⟨h2, by simpa using e, g⟩
    obtain ⟨h2, e2, g2⟩ := hk
    have inv2 := o.inv.growsV g2
    obtain ⟨cand, h3, e3, ba⟩ := ih inv2 (.inl hr) (by
      intro x hxm
      rw [g2.core]
      obtain ⟨a1, a2, a3⟩ := hl x (by simp [hxm])
      refine ⟨a1, ?_, ?_⟩
      · rw [o.same.route r hr]; exact a2
      · rw [o.same.tripsOf hr]; exact a3)
    have hsame := ba.same
    rw [g2.core] at hsame
    have hn := ba.nRoute
    rw [g2.core, o.nRoute] at hn
    refine ⟨(r', b) :: cand, h3, ?_, ?_⟩
    · simp only [insertAll]
      rw [Py.bind_ok e1, Py.bind_ok e2, Py.bind_ok e3]
      simp only [Py.pure_run, List.filter_cons]
      cases hb : (!f || b) <;> simp
    · have hnew := o.new
      have first : ((∀ x ∈ (t, i, j) :: l, x.2.1 ≤ 1) ∨ Calm E h.core r) → SameCore R h.core h1.core := by
        intro hcond
        refine o.core ?_
        rcases hcond with hc | hc
        · exact .inl (hc (t, i, j) (by simp))
        · exact .inr hc
      have later : ((∀ x ∈ (t, i, j) :: l, x.2.1 ≤ 1) ∨ Calm E h.core r) → (∀ x ∈ l, x.2.1 ≤ 1) ∨ Calm E h2.core r := by
        intro hcond
        have c1 := first hcond
        rcases hcond with hc | hc
        · exact .inl fun x hxm => hc x (by simp [hxm])
        · right
          intro s hs
          rw [g2.core] at hs ⊢
          rw [c1.route r hr] at hs
          have hsm : s ∈ (h.core.route r).stops := List.mem_of_getElem? hs
          rw [(c1.tm (E := E) hr (inv.ok.wf r hr) hsm).1]
          exact hc s hs
      refine ⟨ba.inv.subset ?_, ?_, o.same.trans (hsame.subset fun q hq => .inl hq), ?_, ?_, ?_, ?_, ?_, ?_, ?_, ?_, ?_, ?_, ?_⟩
      · rintro q (hq | ⟨hq1, hq2⟩)
        · exact .inl (.inl hq)
        · by_cases hqr : q = r'
          · exact .inl (.inr hqr)
          · right
            rw [g2.core, o.nRoute]
            constructor <;> omega
      · rw [hn, List.length_cons]; omega
      · have := ba.ids
        rw [g2.core, o.nRoute] at this
        rw [List.map_cons, this, List.length_cons, List.range'_succ, hnew]
      · rw [List.map_cons, List.map_cons, hsame.duties Plus.right, o.duties]
        have := ba.duties
        rw [g2.core, o.same.duties hr] at this
        rw [this]
      · intro c hc
        rcases List.mem_cons.1 hc with rfl | hc
        · simp only
          rw [hsame.route r' Plus.right, o.vehicle]
        · rw [ba.vehicle c hc, g2.core, o.same.route r hr]
      · intro c hc
        rcases List.mem_cons.1 hc with rfl | hc
        · exact o.judged.verdict.transfer hsame Plus.right (o.inv.ok.wf r' Plus.right)
        · exact ba.judged c hc
      · intro hcond
        refine (first hcond).trans ?_
        have c2 := ba.core (later hcond)
        rw [g2.core] at c2
        exact c2.subset fun q hq => .inl hq
      · refine o.apart.trans ?_
        have c2 := ba.apart
        rw [g2.core] at c2
        refine c2.subset ?_
        rintro q ⟨hq, hne⟩
        exact ⟨.inl hq, by rw [o.same.route q hq, o.same.route r hr]; exact hne⟩
      · refine o.others.trans ?_
        have c2 := ba.others
        rw [g2.core] at c2
        refine c2.subset ?_
        rintro q ⟨hq, hne⟩
        exact ⟨.inl hq, by rw [o.same.route q hq, o.same.route r hr]; exact hne⟩
      · intro q b' hq hb
        exact ba.kept q b' (.inl hq) (g2.kept (o.kept q b' hq hb))
      · intro c hc
        rcases List.mem_cons.1 hc with rfl | hc
        · exact ba.kept r' b Plus.right (g2.kept o.judged.memo)
        · exact ba.memo c hc
      · intro c hc p hp hpt
        rcases List.mem_cons.1 hc with rfl | hc
        · simp only at hp
          rw [hsame.planned Plus.right] at hp
          obtain ⟨s, hs, hps⟩ := List.mem_flatMap.1 hp
          have e : h3.core.pt p = h1.core.pt p :=
            hsame.pt r' Plus.right s hs p (List.mem_append_left _ hps)
          rw [e] at hpt ⊢
          exact o.owner p hp hpt
        · have := ba.owner c hc p hp
          rw [g2.core, o.same.tripsOf hr, o.same.route r hr] at this
          exact this hpt
      · intro hex hcond y hy
        rw [List.zip_cons_cons] at hy
        rcases List.mem_cons.1 hy with rfl | hy
        · exact o.verdict hex
        · have hcond' : (∀ x ∈ (t, i, j) :: l, x.2.1 ≤ 1) ∨ Calm E h.core r := by
            rcases hcond with hc | hc
            · have : l = [] := by
                cases l with
                | nil => rfl
                | cons a b => simp at hc
              rw [this] at hy
              simp at hy
            · exact hc
          have := ba.verdict hex (.inr (later hcond')) y hy
          rw [g2.core, (first hcond').itinerary hr, o.same.route r hr] at this
          exact this

theorem compute_run {md : Mode} (hE : EnvOK E) (hx : md = .exact → ∀ t, (E.trip t).timeout = .inf) (f : Bool) {r i j : Nat}
    {R : Nat → Prop} {h : Heap} (inv : Inv E md R h) (hr : R r) (ts : List Nat) (hij : i < j)
    (hj : j < (h.core.route r).stops.length) (hts : ∀ t ∈ ts, t ∉ tripsOf h.core r) :
    ∃ cand h', compute E f r ts i j h = (.ok ((cand.filter fun c => !f || c.2).map Prod.fst), h') ∧
      Batch E md R h h' r (ts.map fun t => (t, i, j)) cand := by
  obtain ⟨cand, h', e, ba⟩ := insertAll_run hE hx f (ts.map fun t => (t, i, j)) inv hr (by
    intro x hxm
    obtain ⟨t, ht, rfl⟩ := List.mem_map.1 hxm
    exact ⟨hij, hj, hts t ht⟩)
  refine ⟨cand, h', ?_, ba⟩
  unfold compute
  have : decide (i < j) = true := by simpa using hij
  rw [this, Py.bind_ok (Py.assert_true h), computeEach_eq, e]

theorem computePairs_run {md : Mode} (hE : EnvOK E) (hx : md = .exact → ∀ t, (E.trip t).timeout = .inf) (f : Bool) {r : Nat}
    {R : Nat → Prop} {h : Heap} (inv : Inv E md R h) (hr : R r) (ts : List Nat) (ps : List (Nat × Nat))
    (hps : ∀ x ∈ ps, x.1 < x.2 ∧ x.2 < (h.core.route r).stops.length) (hts : ∀ t ∈ ts, t ∉ tripsOf h.core r) :
    ∃ cand h', computePairs E f r ts ps h = (.ok ((cand.filter fun c => !f || c.2).map Prod.fst), h') ∧
      Batch E md R h h' r (ps.flatMap fun x => ts.map fun t => (t, x.1, x.2)) cand := by
  obtain ⟨cand, h', e, ba⟩ := insertAll_run hE hx f (ps.flatMap fun x => ts.map fun t => (t, x.1, x.2)) inv hr (by
    intro x hxm
    obtain ⟨p, hp, hxm⟩ := List.mem_flatMap.1 hxm
    obtain ⟨t, ht, rfl⟩ := List.mem_map.1 hxm
    exact ⟨(hps p hp).1, (hps p hp).2, hts t ht⟩)
  exact ⟨cand, h', by rw [computePairs_eq f r ts ps (fun x hx => (hps x hx).1), e], ba⟩

end Jinete
