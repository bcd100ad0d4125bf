import Verif.Proofs.RankedStep
import Verif.Proofs.RankedNext
import Verif.Proofs.Copy

/-!
# Runs of the insertion algorithm with the ranking iterator
-/

set_option autoImplicit false

namespace Jinete

variable {S : Settings} {md : Mode}

/-! ## The routes an iterator starts from -/

theorem SameCore.duties {R : Nat → Prop} {c c' : Core} (a : SameCore R c c') {q : Nat} (hq : R q) :
    Jinete.duties c' q = Jinete.duties c q := by unfold Jinete.duties; rw [a.itinerary hq]

/-- The visits of an empty route: the ends, without requested starts. -/
def bareTour (E : Env) (v : Nat) : List Visit :=
  [⟨(E.vehicle v).origin.position, none, [], []⟩, ⟨(E.vehicle v).destination.position, none, [], []⟩]

theorem newRoute_bare {E : Env} {v n : Nat} {h h' : Heap} (e : newRoute E v h = (.ok n, h')) : itinerary h'.core n = bareTour E v := by
  have e1 : n = h.core.nRoute := by cases e; rfl
  have e2 : h' = (newRoute E v h).2 := by rw [e]
  subst e1 e2
  simp [itinerary, newRoute, newStop, Heap.allocRoute, Heap.allocStop, Py.bind_run, Py.read, Py.modify, visitOf, bareTour, Function.update_self]

theorem newRoutes_meets {X : Err → Prop} : ∀ (vs : List Nat) {R : Nat → Prop} {s : IterState}, Inv S.env md R s.heap →
    Meets (Py.mapEach vs fun v => onHeap (newRoute S.env v)) s (fun rs s' => s' = { s with heap := s'.heap } ∧
      Inv S.env md (fun q => R q ∨ q ∈ rs) s'.heap ∧ Below s.heap s'.heap ∧
      rs.map (fun r => (s'.heap.core.route r).vehicle) = vs ∧
      (∀ r ∈ rs, StartDuties S s.heap none (s'.heap.core.route r).vehicle (duties s'.heap.core r)) ∧
      ∀ r ∈ rs, itinerary s'.heap.core r = bareTour S.env (s'.heap.core.route r).vehicle) X := by
  intro vs
  induction vs with
  | nil =>
    intro R s inv
    exact .pure ⟨rfl, inv.subset (by simp), ⟨le_refl _, le_refl _, le_refl _, fun _ _ => rfl, fun _ _ => ⟨rfl, rfl, rfl, rfl⟩,
      fun _ _ => ⟨rfl, rfl⟩, fun _ _ => ⟨rfl, rfl⟩⟩, rfl, by simp, by simp⟩
  | cons v vs ih =>
    intro R s inv
    obtain ⟨h1, e1, inv1, below1, n1, v1, d1⟩ := newRoute_inv v inv
    refine .bind (Q := fun r s1 => r = s.heap.core.nRoute ∧ s1 = { s with heap := h1 })
      (.onHeap (.of_ok e1 ⟨rfl, rfl⟩)) ?_
    rintro _ _ ⟨rfl, rfl⟩
    refine .bind (ih (s := { s with heap := h1 }) inv1) ?_
    rintro rs s2 ⟨hs2, inv2, below2, v2, d2, b2⟩
    have kept := (below2.keeps (R := Plus R s.heap.core.nRoute) inv1.ok.wf).core
    have hn : Plus R s.heap.core.nRoute s.heap.core.nRoute := .inr rfl
    have hv : (s2.heap.core.route s.heap.core.nRoute).vehicle = v := by rw [kept.route _ hn]; exact v1
    refine .pure ⟨by rw [hs2], inv2.subset ?_, below1.trans below2, ?_, ?_, ?_⟩
    · rintro q (hq | hq)
      · exact .inl (.inl hq)
      · rcases List.mem_cons.1 hq with rfl | hq
        · exact .inl hn
        · exact .inr hq
    · rw [List.map_cons, v2, hv]
    · intro r hr
      rcases List.mem_cons.1 hr with rfl | hr
      · show _ = _
        rw [hv, kept.duties hn]; exact d1
      · exact d2 r hr
    · intro r hr
      rcases List.mem_cons.1 hr with rfl | hr
      · rw [hv, kept.itinerary hn]; exact newRoute_bare e1
      · exact b2 r hr

/-- A route that serves nobody, or whose planned trips and ends meet what the mode asks of positive verdicts. -/
def Fine (E : Env) (md : Mode) (c : Core) (r : Nat) : Prop := tripsOf c r = [] ∨ RouteVerdict E md c r true

theorem Fine.same {E : Env} {R : Nat → Prop} {c c' : Core} {r : Nat} (f : Fine E md c r) (a : SameT E R c c') (hr : R r) (hw : WellFormed c r) :
    Fine E md c' r := by
  rcases f with f | f
  · left
    rw [picks_duties, a.duties hr, ← picks_duties]
    exact f
  · exact .inr (f.transfer a hr hw)

theorem Fine.double {E : Env} {h : Heap} {r : Nat} (f : Fine E md h.core r) (hw : WellFormed h.core r) :
    Fine E md h.double.core (r + h.core.nRoute) := by
  rcases f with f | f
  · left
    unfold tripsOf at f ⊢
    rw [double_itinerary hw]
    exact f
  · refine .inr ⟨fun hm hb => ?_, fun hb p hp => ?_⟩
    · have := f.ends hm hb
      obtain ⟨x, y, hx, hy⟩ := hw.ends
      have hx' := List.mem_of_mem_head? hx
      have hy' := List.mem_of_getLast? hy
      unfold endsV at this ⊢
      rw [hx, hy] at this
      rw [double_stops hw, List.head?_map, List.getLast?_map, hx, hy]
      simp only [Option.map_some] at this ⊢
      rw [double_stop (hw.alloc x hx'), double_stop (hw.alloc y hy'), (double_at (E := E) hw hx').1, (double_at (E := E) hw hy').1,
        double_route hw]
      exact this
    · rw [double_planned hw] at hp
      obtain ⟨p, hp0, rfl⟩ := List.mem_map.1 hp
      exact double_ptVerdict hw hp0 (f.trips hb p hp0)

/-- The routes given are all fine. -/
def StartsFine (S : Settings) (md : Mode) (h : Heap) (initial : Option (List Nat)) : Prop :=
  ∀ rs, initial = some rs → ∀ r ∈ rs, Fine S.env md h.core r

/-- What is assumed of the initial routes. -/
def Starts (S : Settings) (md : Mode) (h : Heap) (initial : Option (List Nat)) : Prop :=
  ∀ rs, initial = some rs → Startable S h rs ∧ Inv S.env md (· ∈ rs) h

theorem startingRoutes_meets (hF : Fair S) {h : Heap} {initial : Option (List Nat)} (hs : Starts S md h initial)
    {X : Err → Prop} :
    Meets (startingRoutes S initial) (.initial h) (fun rs s' => s' = { IterState.initial h with heap := s'.heap, clock := s'.clock } ∧
      Inv S.env md (· ∈ rs) s'.heap ∧ (rs.map fun r => (s'.heap.core.route r).vehicle).Perm S.fleet ∧
      (∀ r ∈ rs, StartDuties S h initial (s'.heap.core.route r).vehicle (duties s'.heap.core r)) ∧
      (initial = none → rs.flatMap (tripsOf s'.heap.core) = []) ∧
      (∀ rs0, initial = some rs0 → rs.flatMap (tripsOf s'.heap.core) = rs0.flatMap (tripsOf h.core)) ∧
      (StartsFine S md h initial → ∀ r ∈ rs, Fine S.env md s'.heap.core r) ∧
      (initial = none → ∀ r ∈ rs, itinerary s'.heap.core r = bareTour S.env (s'.heap.core.route r).vehicle)) X := by
  cases initial with
  | none =>
    refine .bind (ordered_meets hF) ?_
    rintro vs s1 ⟨hp, rfl⟩
    refine (newRoutes_meets (md := md) vs (R := fun _ => False) ⟨⟨fun _ h => h.elim, fun _ h => h.elim, fun _ h => h.elim⟩,
      ⟨fun _ h => h.elim, fun _ h => h.elim, fun _ h => h.elim⟩⟩).mono ?_
    rintro rs s2 ⟨h1, h2, _, h4, h5, h6⟩
    refine ⟨by rw [h1], h2.subset fun q hq => .inr hq, by rw [h4]; exact hp, h5, ?_, (fun _ h => nomatch h), ?_, fun _ => h6⟩
    · intro _
      rw [List.flatMap_eq_nil_iff]
      intro r hr
      have := h5 r hr
      unfold StartDuties at this
      rw [picks_duties, this]
      rfl
    · intro _ r hr
      left
      have := h5 r hr
      unfold StartDuties at this
      rw [picks_duties, this]
      rfl
  | some rs0 =>
    obtain ⟨st, inv⟩ := hs rs0 rfl
    have hw : ∀ q ∈ rs0, WellFormed h.core q := fun q hq => (st.sound q hq).1
    have hd : ∀ q ∈ rs0, duties h.double.core (q + h.core.nRoute) = duties h.core q := fun q hq => by
      unfold duties; rw [double_itinerary (hw q hq)]
    have hv : ∀ q ∈ rs0, (h.double.core.route (q + h.core.nRoute)).vehicle = (h.core.route q).vehicle := fun q hq => by
      rw [double_route (hw q hq)]; rfl
    have run : deepcopyRoutes rs0 (IterState.initial h).heap = (.ok (rs0.map (· + h.core.nRoute)), h.double) := rfl
    show Meets (onHeap (deepcopyRoutes rs0)) _ _ _
    refine Meets.onHeap (Meets.of_ok run ⟨rfl, ?_, ?_, ?_, ?_, ?_, ?_, fun h => nomatch h⟩)
    · refine (double_inv inv).subset ?_
      intro q hq
      right
      obtain ⟨q0, h0, rfl⟩ := List.mem_map.1 hq
      exact ⟨q0, h0, rfl⟩
    · have e : (rs0.map (· + h.core.nRoute)).map (fun r => (h.double.core.route r).vehicle) =
          rs0.map fun r => (h.core.route r).vehicle := by
        rw [List.map_map]
        exact List.map_congr_left fun q hq => hv q hq
      show ((rs0.map (· + h.core.nRoute)).map fun r => (h.double.core.route r).vehicle).Perm _
      rw [e]; exact st.vehicles
    · intro r hr
      obtain ⟨q, hq, rfl⟩ := List.mem_map.1 hr
      exact ⟨q, hq, (hv q hq).symm, hd q hq⟩
    · exact fun h => nomatch h
    · intro rs1 e
      cases e
      rw [List.flatMap_map]
      refine List.flatMap_congr fun q hq => ?_
      show tripsOf h.double.core (q + h.core.nRoute) = _
      rw [picks_duties, picks_duties, hd q hq]
    · intro hf r hr
      obtain ⟨q, hq, rfl⟩ := List.mem_map.1 hr
      exact (hf rs0 rfl q hq).double (hw q hq)

theorem foldl_dictSet (f : Nat → Nat) : ∀ (rs : List Nat) (d : List (Nat × Nat)), (d.map Prod.fst ++ rs.map f).Nodup →
    rs.foldl (fun d r => dictSet d (f r) r) d = d ++ rs.map fun r => (f r, r) := by
  intro rs
  induction rs with
  | nil => intro d _; simp
  | cons r rs ih =>
    intro d hn
    have hr : f r ∉ d.map Prod.fst := by
      intro h
      exact (List.nodup_append.1 hn).2.2 _ h (f r) (by simp) rfl
    have e : dictSet d (f r) r = d ++ [(f r, r)] := by unfold dictSet; rw [if_neg hr]
    rw [List.foldl_cons, e, ih]
    · simp
    · rw [List.map_append, List.append_assoc]; simpa using hn

/-- The state after the constructor of an iterator. -/
theorem iteratorInit_meets (hF : Fair S) (hc : Clean S) {h : Heap} {initial : Option (List Nat)} (hs : Starts S md h initial)
    {X : Err → Prop} :
    Meets (iteratorInit S initial) (.initial h) (fun _ s => ∃ R, Base S md R s ∧ s.attractive = none ∧ s.ranking = [] ∧
      s.gen = none ∧ (∀ e ∈ s.container, StartDuties S h initial e.1 (duties s.heap.core e.2)) ∧
      (StartsFine S md h initial → ∀ e ∈ s.container, Fine S.env md s.heap.core e.2) ∧
      (initial = none → ∀ e ∈ s.container, itinerary s.heap.core e.2 = bareTour S.env e.1)) X := by
  unfold iteratorInit
  refine .bind (startingRoutes_meets hF hs) ?_
  rintro rs s1 ⟨h1, inv, hv, hd, h5, h6, hfine, hbare⟩
  refine .read (.bind (ordered_meets hF) ?_)
  rintro rs' s2 ⟨hp, rfl⟩
  refine .modify_last ⟨(· ∈ rs), ?_⟩
  have hfm : (rs'.flatMap (tripsOf s1.heap.core)).Perm (rs.flatMap (tripsOf s1.heap.core)) := hp.flatMap_right _
  have hkeys : (rs'.map fun r => (s1.heap.core.route r).vehicle).Perm S.fleet := (hp.map _).trans hv
  have hcont : rs'.foldl (fun d r => dictSet d (s1.heap.core.route r).vehicle r) [] =
      rs'.map fun r => ((s1.heap.core.route r).vehicle, r) := by
    have := foldl_dictSet (fun r => (s1.heap.core.route r).vehicle) rs' [] (by simpa using hkeys.nodup_iff.2 hc.fleet)
    simpa using this
  have hdone : (if initial.isSome then rs.flatMap (routeTrips s1.heap.core) else []) = rs.flatMap (tripsOf s1.heap.core) := by
    have e : rs.flatMap (routeTrips s1.heap.core) = rs.flatMap (tripsOf s1.heap.core) :=
      List.flatMap_congr fun r _ => (tripsOf_eq _ _).symm
    cases initial with
    | none => rw [h5 rfl]; rfl
    | some _ => rw [← e]; rfl
  have hnd : (rs.flatMap (tripsOf s1.heap.core)).Nodup ∧ ∀ t ∈ rs.flatMap (tripsOf s1.heap.core), t ∈ S.job := by
    cases initial with
    | none => rw [h5 rfl]; simp
    | some rs0 => rw [h6 rs0 rfl]; exact ⟨(hs rs0 rfl).1.trips, (hs rs0 rfl).1.job⟩
  refine ⟨⟨inv, ?_, ?_, ?_, fun a h => nomatch h⟩, rfl, by rw [h1]; rfl, by rw [h1]; rfl, ?_, ?_, ?_⟩
  · intro e he
    change e ∈ rs'.foldl (fun d r => dictSet d (s1.heap.core.route r).vehicle r) [] at he
    rw [hcont] at he
    obtain ⟨r, hr, rfl⟩ := List.mem_map.1 he
    exact ⟨hp.mem_iff.1 hr, rfl⟩
  · show ((rs'.foldl (fun d r => dictSet d (s1.heap.core.route r).vehicle r) []).map Prod.fst).Perm _
    rw [hcont, List.map_map]
    exact hkeys
  · show (S.job.filter _ ++ (rs'.foldl (fun d r => dictSet d (s1.heap.core.route r).vehicle r) []).flatMap
      fun e => tripsOf s1.heap.core e.2).Perm _
    rw [hcont, List.flatMap_map, hdone]
    refine (List.Perm.append_left _ hfm).trans ?_
    refine (List.perm_ext_iff_of_nodup ?_ hc.job).2 ?_
    · refine List.nodup_append.2 ⟨hc.job.filter _, hnd.1, ?_⟩
      rintro a ha b hb rfl
      have := (List.mem_filter.1 ha).2
      simp only [decide_eq_true_eq] at this
      exact this hb
    · intro t
      simp only [List.mem_append, List.mem_filter, decide_eq_true_eq]
      constructor
      · rintro (h | h)
        · exact h.1
        · exact hnd.2 t h
      · intro h
        by_cases ht : t ∈ rs.flatMap (tripsOf s1.heap.core)
        · exact .inr ht
        · exact .inl ⟨h, ht⟩
  · intro e he
    change e ∈ rs'.foldl (fun d r => dictSet d (s1.heap.core.route r).vehicle r) [] at he
    rw [hcont] at he
    obtain ⟨r, hr, rfl⟩ := List.mem_map.1 he
    exact hd r (hp.mem_iff.1 hr)
  · intro hf e he
    change e ∈ rs'.foldl (fun d r => dictSet d (s1.heap.core.route r).vehicle r) [] at he
    rw [hcont] at he
    obtain ⟨r, hr, rfl⟩ := List.mem_map.1 he
    exact hfine hf r (hp.mem_iff.1 hr)
  · intro hi e he
    change e ∈ rs'.foldl (fun d r => dictSet d (s1.heap.core.route r).vehicle r) [] at he
    rw [hcont] at he
    obtain ⟨r, hr, rfl⟩ := List.mem_map.1 he
    exact hbare hi r (hp.mem_iff.1 hr)

/-! ## The invariant along a run -/

variable {h0 : Heap} {initial : Option (List Nat)} {start : List Nat} {R : Nat → Prop} {s s' : IterState}

/-- The invariant of the iterator together with where its routes came from. -/
structure Running (S : Settings) (md : Mode) (h0 : Heap) (initial : Option (List Nat)) (start : List Nat) (R : Nat → Prop)
    (s : IterState) : Prop extends Ranked S md start R s where
  origin : ∀ r ∈ start, R r ∧ StartDuties S h0 initial (s.heap.core.route r).vehicle (duties s.heap.core r)
  grown : ∀ e ∈ s.container, ∃ ds, StartDuties S h0 initial e.1 ds ∧ Grown S.env ds (duties s.heap.core e.2)
  ranked : s.container ≠ [] → s.ranking ≠ []
  fine : StartsFine S md h0 initial → ∀ r ∈ start, Fine S.env md s.heap.core r
  bare : initial = none → ∀ e ∈ s.container, (s.heap.core.route e.2).stops.length = 2 → itinerary s.heap.core e.2 = bareTour S.env e.1
  idle : initial = none → ∃ a, s.attractive = some a ∧ Idle s.heap.core s.container a

theorem itinerary_length (c : Core) (r : Nat) : (itinerary c r).length = (c.route r).stops.length := by simp [itinerary]

theorem bare_unloaded {E : Env} {c : Core} {r v : Nat} (h : itinerary c r = bareTour E v) : routeLoaded c r = false := by
  have : routePlannedTrips c r = [] := by
    have h1 : tripsOf c r = [] := by unfold tripsOf; rw [h]; rfl
    rw [tripsOf_eq] at h1
    unfold routeTrips at h1
    simpa using h1
  unfold routeLoaded
  rw [this]
  rfl

theorem rankingInit_meets (hE : EnvOK S.env) (hF : Fair S) (hc : Clean S)
    (hx : md = .exact → ∀ t, (S.env.trip t).timeout = .inf) (hs : Starts S md h0 initial) :
    Meets (rankingInit S initial) (.initial h0) (fun _ s => ∃ start R, Running S md h0 initial start R s) S.strategy.Hangs := by
  refine .bind (iteratorInit_meets hF hc hs) ?_
  rintro _ s ⟨R, b, ha, hr, _, hd, hfine, hbare⟩
  refine (initializeRanking_meets hE hF hc hx b ha hr).mono ?_
  rintro _ s' ⟨R', hsub, same, hcont, _, hne, k, short, idle⟩
  refine ⟨_, R', k, ?_, ?_, by rw [hcont]; exact hne, ?_, ?_, fun hi => idle fun e he => bare_unloaded (hbare hi e he)⟩
  · intro r hr
    obtain ⟨e, he, rfl⟩ := List.mem_map.1 hr
    obtain ⟨h1, h2⟩ := b.routes e he
    refine ⟨hsub _ h1, ?_⟩
    rw [same.route _ h1, same.duties h1, h2]
    exact hd e he
  · intro e he
    rw [hcont] at he
    exact ⟨_, hd e he, by rw [same.duties (b.routes e he).1]; exact .refl⟩
  · intro hf r hr
    obtain ⟨e, he, rfl⟩ := List.mem_map.1 hr
    obtain ⟨h1, _⟩ := b.routes e he
    exact (hfine hf e he).same same h1 (b.inv.ok.wf _ h1)
  · intro hi e he h2
    rw [hcont] at he
    rw [same.route _ (b.routes e he).1] at h2
    rw [short e he h2]
    exact hbare hi e he

theorem Ranked.growsV (k : Ranked S md start R s) (g : GrowsV S.env s.heap s'.heap) (hi : SameIter s s') :
    Ranked S md start R s' where
  toBase := k.toBase.growsV g hi
  vehicles := by
    obtain ⟨a, ha, hv⟩ := k.vehicles
    exact ⟨a, by rw [hi.attractive, ha], by rw [hi.ranking, g.core]; exact hv⟩
  nodup := by rw [hi.ranking]; exact k.nodup
  sub w l r hl hr := by
    rw [hi.ranking] at hl
    rw [hi.container] at hr
    rw [hi.pending]
    exact (k.sub w l r hl hr).step (Frame.of_growsV g) (fun _ h => h) (k.routes _ hr)
  loaded e he hl := by
    rw [hi.container] at he
    rw [g.core] at hl
    rw [hi.ranking]
    exact k.loaded e he hl
  judged e he := by
    rw [hi.container] at he
    rcases k.judged e he with h | h
    · exact .inl h
    · exact .inr (g.kept h)

theorem Running.growsV (k : Running S md h0 initial start R s) (g : GrowsV S.env s.heap s'.heap) (hi : SameIter s s') :
    Running S md h0 initial start R s' where
  toRanked := k.toRanked.growsV g hi
  origin := by rw [g.core]; exact k.origin
  grown := by rw [g.core, hi.container]; exact k.grown
  ranked := by rw [hi.container, hi.ranking]; exact k.ranked
  fine := by rw [g.core]; exact k.fine
  bare := by rw [g.core, hi.container]; exact k.bare
  idle := by rw [g.core, hi.container, hi.attractive]; exact k.idle

/-- The current route of a ranked vehicle. -/
theorem Ranked.current (k : Ranked S md start R s) {w : Nat} (hw : w ∈ s.ranking.map Prod.fst) :
    ∃ r0, (w, r0) ∈ s.container := by
  obtain ⟨a, ha, hv⟩ := k.vehicles
  obtain ⟨q, hq, hqv⟩ := (hv w).1 hw
  have := (k.attr a ha q hq).2
  rw [hqv] at this
  obtain ⟨⟨v, r0⟩, h0, e0⟩ := List.mem_map.1 this
  exact ⟨r0, by rw [← e0]; exact h0⟩

theorem Running.accept (hE : EnvOK S.env) (hF : Fair S) (hc : Clean S)
    (hx : md = .exact → ∀ t, (S.env.trip t).timeout = .inf) (k : Running S md h0 initial start R s) {w r : Nat} {l : List Nat}
    (hl : (w, l) ∈ s.ranking) (hr : r ∈ l) (hf : s.heap.rfeas r = some true) :
    Meets (setRoute (markRanked S) r) s (fun _ s' => ∃ R' t, Accepted S s s' w r t ∧
      Running S md h0 initial start R' s') S.strategy.Hangs := by
  obtain ⟨r0, hr0⟩ := k.toRanked.current (List.mem_map.2 ⟨_, hl, rfl⟩)
  have c := (k.sub w l r0 hl hr0).cand r hr
  refine (setRoute_meets hE hF hc hx k.toRanked hl hr hf).mono ?_
  rintro _ s' ⟨R', t, acc, hsub, same, k', short, idle⟩
  refine ⟨R', t, acc, k', ?_, ?_, ?_, fun hf q hq =>
    (k.fine hf q hq).same same (k.origin q hq).1 (k.inv.ok.wf _ (k.origin q hq).1), ?_, fun hi => ?_⟩
  · intro q hq
    obtain ⟨h1, h2⟩ := k.origin q hq
    exact ⟨hsub q h1, by rw [same.route q h1, same.duties h1]; exact h2⟩
  · intro e he
    rw [acc.container] at he
    rcases dictSet_mem he with rfl | ⟨_, he⟩
    · obtain ⟨ds, d1, d2⟩ := k.grown _ hr0
      obtain ⟨u, i, j, _, hij, hj, hd⟩ := c.duties
      refine ⟨ds, d1, ?_⟩
      rw [same.duties c.mem, hd]
      refine .insert d2 hij ?_
      simpa [duties, itinerary] using hj
    · obtain ⟨ds, d1, d2⟩ := k.grown e he
      exact ⟨ds, d1, by rw [same.duties (k.routes e he).1]; exact d2⟩
  · intro _ hr0'
    have hm : (w, r) ∈ s'.container := by rw [acc.container]; exact dictSet_self
    have hl : routeLoaded s'.heap.core r = true := by
      obtain ⟨u, i, j, _, hij, _, hd⟩ := c.duties
      have ht : u ∈ tripsOf s.heap.core r := (tripsOf_withTrip hij hd).mem_iff.2 (by simp)
      rw [tripsOf_eq] at ht
      obtain ⟨p, hp, _⟩ := List.mem_map.1 ht
      rw [same.loaded c.mem]
      unfold routeLoaded
      simpa using List.ne_nil_of_mem hp
    have := k'.loaded _ hm hl
    rw [hr0'] at this
    simp at this
  · intro hi e he h2
    rw [acc.container] at he
    rcases dictSet_mem he with rfl | ⟨_, he'⟩
    · obtain ⟨u, i, j, _, hij, hj, hd⟩ := c.duties
      have h3 := congrArg List.length hd
      rw [same.route _ c.mem] at h2
      simp [duties, itinerary, withTrip] at h3
      omega
    · rw [same.route _ (k.routes e he').1] at h2
      rw [short e he h2]
      exact k.bare hi e he' h2
  · obtain ⟨a, ha, i⟩ := k.idle hi
    exact idle fun a' ha' => by rw [ha] at ha'; cases ha'; exact i.1

/-- `feasible` of a route of the family. -/
theorem feasible_meets (hE : EnvOK S.env) (inv : Inv S.env md R s.heap) {r : Nat} (hr : R r) {X : Err → Prop} :
    Meets (onHeap (routeFeasible S.env r)) s (fun b s' => SameIter s s' ∧ GrowsV S.env s.heap s'.heap ∧
      s'.heap.rfeas r = some b) X := by
  obtain ⟨h', e, g, hm⟩ := routeFeasible_memo hE (inv.ok.wf r hr) rfl (inv.ok.agree r hr)
  exact .onHeap (.of_ok e ⟨rfl, g, hm⟩)

/-- Every state of a run satisfies the invariant. -/
theorem RankedRun.running (hE : EnvOK S.env) (hF : Fair S) (hc : Clean S) (hn : 0 < S.randomized)
    (hx : md = .exact → ∀ t, (S.env.trip t).timeout = .inf) (hs : Starts S md h0 initial) {s : IterState}
    (run : RankedRun S h0 initial s) : ∃ start R, Running S md h0 initial start R s := by
  induction run with
  | init e => exact (rankingInit_meets hE hF hc hx hs).ok e
  | step _ e1 e2 e3 ih =>
    obtain ⟨start, R, k⟩ := ih
    obtain ⟨i1, g1, cand, hr, hp⟩ := (nextRanked_meets hE hF k.toRanked hn).ok e1
    have k1 := k.growsV g1 i1
    obtain ⟨l, hl, hrl⟩ := hp.mem _ hr
    obtain ⟨⟨w, l⟩, hwl, rfl⟩ := List.mem_map.1 hl
    rw [← i1.ranking] at hwl
    obtain ⟨r0, hr0⟩ := k1.toRanked.current (List.mem_map.2 ⟨_, hwl, rfl⟩)
    have hR := ((k1.sub w l r0 hwl hr0).cand _ hrl).mem
    obtain ⟨i2, g2, hf⟩ := (feasible_meets (X := fun _ => False) hE k1.inv hR).ok e2
    have k2 := k1.growsV g2 i2
    rw [← i2.ranking] at hwl
    obtain ⟨R', _, _, k3⟩ := (k2.accept hE hF hc hx hwl hrl hf).ok e3
    exact ⟨start, R', k3⟩

/-- How a run ends: all candidates are used up, or one was drawn that says it is infeasible. -/
def Stopped (S : Settings) (s : IterState) : Prop :=
  (∀ e ∈ s.ranking, e.2 = []) ∨ ∃ cand r, r ∈ cand ∧ s.heap.rfeas r = some false ∧
    Picked S.criterion.direction S.randomized (scoreNow S s.heap) (s.ranking.map Prod.snd) cand

theorem Picked.congr {d : Direction} {n : Nat} {f g : Nat → Score} {ls : List (List Nat)} {cand : List Nat}
    (a : Picked d n f ls cand) (h : ∀ q, g q = f q) : Picked d n g ls cand := by
  have : g = f := funext h
  rw [this]; exact a

theorem catchStop_meets {σ α : Type} {m : Py σ α} {s : σ} {Q : α → σ → Prop} {X Y : Err → Prop} {P : Option α → σ → Prop}
    (h : Meets m s Q X) (h1 : ∀ a s', Q a s' → P (some a) s')
    (h2 : ∀ s', m s = (.error .stopIteration, s') → X .stopIteration → P none s')
    (h3 : ∀ e, X e → e ≠ .stopIteration → Y e) : Meets (catchStop m) s P Y := by
  unfold Meets at h ⊢
  unfold catchStop
  rcases e : m s with ⟨r, s'⟩
  rw [e] at h
  cases r with
  | ok a => exact h1 a s' h
  | error x =>
    by_cases hx : x = .stopIteration
    · subst hx; exact h2 s' e h
    · have := h3 x h hx
      cases x <;> first | exact this | exact (hx rfl).elim

theorem scanRanking_empty : ∀ (rest : List (Nat × List Nat)) (s : IterState), (∀ e ∈ rest, e.2 = []) →
    scanRanking S rest [] s = (.ok [], s) := by
  intro rest
  induction rest with
  | nil => intro s _; rfl
  | cons e rest ih =>
    intro s h
    obtain ⟨w, l⟩ := e
    have : l = [] := h (w, l) (by simp)
    subst this
    rw [scanRanking]
    exact ih s fun e he => h e (by simp [he])

theorem nextRanked_empty (h : ∀ e ∈ s.ranking, e.2 = []) : nextRanked S s = (.error .stopIteration, s) := by
  unfold nextRanked
  rw [Py.read_bind]
  split
  · rfl
  · rw [Py.bind_ok (scanRanking_empty s.ranking s h)]
    rfl

/-- One pass of the loop. -/
theorem pass_meets (hE : EnvOK S.env) (hF : Fair S) (hn : 0 < S.randomized) (k : Running S md h0 initial start R s)
    {X : Err → Prop} :
    Meets (catchStop (nextRanked S)) s (fun o s' => match o with
      | none => s' = s ∧ ∀ e ∈ s.ranking, e.2 = []
      | some r => SameIter s s' ∧ GrowsV S.env s.heap s'.heap ∧ ∃ cand, r ∈ cand ∧
          Picked S.criterion.direction S.randomized (scoreNow S s.heap) (s.ranking.map Prod.snd) cand) X := by
  refine catchStop_meets (nextRanked_meets hE hF k.toRanked hn) (fun _ _ h => h) ?_ (fun e h hne => (hne h.1).elim)
  rintro s' e ⟨_, h⟩
  rw [nextRanked_empty h] at e
  exact ⟨(congrArg Prod.snd e).symm, h⟩

/-- Where a drawn candidate comes from. -/
theorem Running.drawn (k : Running S md h0 initial start R s) {d : Direction} {n : Nat} {f : Nat → Score} {cand : List Nat} {r : Nat}
    (hp : Picked d n f (s.ranking.map Prod.snd) cand) (hr : r ∈ cand) :
    ∃ w l r0, (w, l) ∈ s.ranking ∧ r ∈ l ∧ (w, r0) ∈ s.container ∧ Cand S R s.heap w r0 (· ∈ s.pending) r := by
  obtain ⟨l, hl, hrl⟩ := hp.mem _ hr
  obtain ⟨⟨w, l⟩, hwl, rfl⟩ := List.mem_map.1 hl
  obtain ⟨r0, hr0⟩ := k.toRanked.current (List.mem_map.2 ⟨_, hwl, rfl⟩)
  exact ⟨w, l, r0, hwl, hrl, hr0, (k.sub w l r0 hwl hr0).cand _ hrl⟩

/-- The loop keeps the invariant, ends when candidates are used up or an infeasible one is drawn, and needs at most one
pass per pending trip and one more. -/
theorem insertionLoop_meets (hE : EnvOK S.env) (hF : Fair S) (hc : Clean S) (hn : 0 < S.randomized)
    (hx : md = .exact → ∀ t, (S.env.trip t).timeout = .inf) : ∀ (n : Nat) {R : Nat → Prop} {s : IterState},
    Running S md h0 initial start R s →
    Meets (insertionLoop S (nextRanked S) (markRanked S) n) s
      (fun _ s' => (∃ R', Running S md h0 initial start R' s') ∧ Stopped S s' ∧ ∀ t ∈ s'.pending, t ∈ s.pending)
      (fun e => S.strategy.Hangs e ∨ e = .outOfFuel ∧ n ≤ s.pending.length) := by
  intro n
  induction n with
  | zero => intro R s _; exact .of_error (x := .outOfFuel) rfl (.inr ⟨rfl, Nat.zero_le _⟩)
  | succ n ih =>
    intro R s k
    rw [insertionLoop]
    refine .bind (pass_meets hE hF hn k) ?_
    rintro (_ | r) s1 h1
    · obtain ⟨rfl, h1⟩ := h1
      exact .pure ⟨⟨R, k⟩, .inl h1, fun _ h => h⟩
    · obtain ⟨i1, g1, cand, hr, hp⟩ := h1
      have k1 := k.growsV g1 i1
      rw [← i1.ranking] at hp
      obtain ⟨w, l, r0, hwl, hrl, hr0, c⟩ := k1.drawn hp hr
      show Meets (onHeap (routeFeasible S.env r) >>= fun b => _) _ _ _
      refine .bind (feasible_meets hE k1.inv c.mem) ?_
      rintro b s2 ⟨i2, g2, hf⟩
      have k2 := k1.growsV g2 i2
      have hpend : s2.pending = s.pending := by rw [i2.pending, i1.pending]
      cases b with
      | false =>
        refine .pure ⟨⟨R, k2⟩, .inr ⟨cand, r, hr, hf, ?_⟩, by rw [hpend]; exact fun _ h => h⟩
        rw [i2.ranking]
        exact hp.congr fun q => by rw [scoreNow_growsV g2, scoreNow_growsV g1]
      | true =>
        rw [← i2.ranking] at hwl
        refine .bind ((k2.accept hE hF hc hx hwl hrl hf).monoX fun e h => .inl h) ?_
        rintro _ s3 ⟨R', t, acc, k3⟩
        have hlen : s3.pending.length + 1 = s.pending.length := by
          rw [acc.pending, ← hpend, List.length_erase_of_mem acc.mem]
          have := List.length_pos_of_mem acc.mem
          omega
        refine ((ih k3).monoX ?_).mono ?_
        · rintro e (h | ⟨h, h'⟩)
          · exact .inl h
          · exact .inr ⟨h, by omega⟩
        · rintro _ s4 ⟨k4, st, hsub⟩
          refine ⟨k4, st, fun t' ht' => ?_⟩
          have := hsub t' ht'
          rw [acc.pending] at this
          rw [← hpend]
          exact List.mem_of_mem_erase this

/-- More fuel than pending trips changes nothing. -/
theorem insertionLoop_fuel (hE : EnvOK S.env) (hF : Fair S) (hc : Clean S) (hn : 0 < S.randomized)
    (hx : md = .exact → ∀ t, (S.env.trip t).timeout = .inf) : ∀ (n m : Nat) {R : Nat → Prop} {s : IterState},
    Running S md h0 initial start R s → s.pending.length < n → s.pending.length < m →
    insertionLoop S (nextRanked S) (markRanked S) n s = insertionLoop S (nextRanked S) (markRanked S) m s := by
  intro n
  induction n with
  | zero => intro m R s _ h; omega
  | succ n ih =>
    intro m R s k hl1 hl2
    obtain ⟨m, rfl⟩ : ∃ m', m = m' + 1 := ⟨m - 1, by omega⟩
    rw [insertionLoop, insertionLoop]
    have hpass := pass_meets (X := fun _ => False) hE hF hn k
    rcases e : catchStop (nextRanked S) s with ⟨o | o, s1⟩
    · exact (hpass.error e).elim
    rw [Py.bind_ok e, Py.bind_ok e]
    cases o with
    | none => rfl
    | some r =>
      obtain ⟨i1, g1, cand, hr, hp⟩ := hpass.ok e
      have k1 := k.growsV g1 i1
      rw [← i1.ranking] at hp
      obtain ⟨w, l, r0, hwl, hrl, hr0, c⟩ := k1.drawn hp hr
      have hfeas := feasible_meets (X := fun _ => False) hE k1.inv c.mem
      show (onHeap (routeFeasible S.env r) >>= fun b => _) s1 = (onHeap (routeFeasible S.env r) >>= fun b => _) s1
      rcases e2 : onHeap (routeFeasible S.env r) s1 with ⟨b | b, s2⟩
      · exact (hfeas.error e2).elim
      rw [Py.bind_ok e2, Py.bind_ok e2]
      obtain ⟨i2, g2, hf⟩ := hfeas.ok e2
      have k2 := k1.growsV g2 i2
      cases b with
      | false => rfl
      | true =>
        rw [← i2.ranking] at hwl
        have hacc := k2.accept hE hF hc hx hwl hrl hf
        show (setRoute (markRanked S) r >>= fun _ => _) s2 = (setRoute (markRanked S) r >>= fun _ => _) s2
        rcases e3 : setRoute (markRanked S) r s2 with ⟨u | u, s3⟩
        · rw [Py.bind_error e3, Py.bind_error e3]
        · rw [Py.bind_ok e3, Py.bind_ok e3]
          obtain ⟨R', t, acc, k3⟩ := hacc.ok e3
          have hpend : s2.pending = s.pending := by rw [i2.pending, i1.pending]
          have hlen : s3.pending.length + 1 = s.pending.length := by
            rw [acc.pending, ← hpend, List.length_erase_of_mem acc.mem]
            have := List.length_pos_of_mem acc.mem
            omega
          exact ih m k3 (by omega) (by omega)

/-- The whole algorithm. -/
theorem insertionAlgorithm_meets (hE : EnvOK S.env) (hF : Fair S) (hc : Clean S) (hn : 0 < S.randomized)
    (hx : md = .exact → ∀ t, (S.env.trip t).timeout = .inf) (hs : Starts S md h0 initial) (n : Nat) :
    Meets (insertionAlgorithm S initial n) (.initial h0) (fun rs s' => rs.Perm (s'.container.map Prod.snd) ∧
      (∃ start R', Running S md h0 initial start R' s') ∧ Stopped S s')
      (fun e => S.strategy.Hangs e ∨ e = .outOfFuel ∧ n ≤ S.job.length) := by
  unfold insertionAlgorithm
  refine .bind ((rankingInit_meets hE hF hc hx hs).monoX fun e h => .inl h) ?_
  rintro _ s ⟨start, R, k⟩
  have hlen := k.toBase.pending_length
  refine .bind ((insertionLoop_meets hE hF hc hn hx n k).monoX ?_) ?_
  · rintro e (h | ⟨h, h'⟩)
    · exact .inl h
    · exact .inr ⟨h, by omega⟩
  · rintro _ s1 ⟨⟨R1, k1⟩, st, _⟩
    unfold iterRoutes
    refine .read ((ordered_meets hF).mono ?_)
    rintro rs s2 ⟨hp, e2⟩
    have hi : SameIter s1 s2 := by rw [e2]; rfl
    have g : GrowsV S.env s1.heap s2.heap := by rw [e2]; exact GrowsV.refl _
    refine ⟨by rw [hi.container]; exact hp, ⟨start, R1, k1.growsV g hi⟩, ?_⟩
    unfold Stopped
    rw [hi.ranking]
    have : s2.heap = s1.heap := by rw [e2]
    rw [this]
    exact st

theorem insertionAlgorithm_fuel (hE : EnvOK S.env) (hF : Fair S) (hc : Clean S) (hn : 0 < S.randomized)
    (hx : md = .exact → ∀ t, (S.env.trip t).timeout = .inf) (hs : Starts S md h0 initial) {n m : Nat}
    (h1 : S.job.length < n) (h2 : S.job.length < m) :
    insertionAlgorithm S initial n (.initial h0) = insertionAlgorithm S initial m (.initial h0) := by
  unfold insertionAlgorithm
  have hr := rankingInit_meets hE hF hc hx hs
  rcases e : rankingInit S initial (.initial h0) with ⟨u | u, s⟩
  · rw [Py.bind_error e, Py.bind_error e]
  · rw [Py.bind_ok e, Py.bind_ok e]
    obtain ⟨start, R, k⟩ := hr.ok e
    have hlen := k.toBase.pending_length
    rw [Py.bind_run, Py.bind_run, insertionLoop_fuel hE hF hc hn hx n m k (by omega) (by omega)]

end Jinete
