import Verif.Model.Storer
import Verif.Proofs.Plot
import Verif.Props.Solve
import Verif.Props.Whole
import Mathlib.Tactic.IntervalCases

/-!
# C96, C97, C98: plots
-/

set_option autoImplicit false

namespace Jinete

variable {E : Env} {ident : Nat → Text} {c c' : Core} {routes routes' trips : List Nat} {g : Plot}

/-! ## C96 -/

/-- **C96.** Of any routes and trips a plot is made without an error; its edges are the legs of the routes, each once, in the colour of the
last route with that leg; its nodes are the ends of these legs and of the trips, each once, with the label of the last trip written
there, or none. -/
theorem C96_plot_made (E : Env) (ident : Nat → Text) (c : Core) (routes trips : List Nat) :
    ∃ g, graphPlot E ident c routes trips = .ok g ∧ PlotOf E ident c routes trips g := graphPlot_spec E ident c routes trips

theorem plotOf_of_ok (h : graphPlot E ident c routes trips = .ok g) : PlotOf E ident c routes trips g := by
  obtain ⟨g', h1, h2⟩ := graphPlot_spec E ident c routes trips
  rw [h1] at h
  cases h
  exact h2

/-- The edges of the plot are exactly the legs of the routes. -/
theorem C96_edges (h : PlotOf E ident c routes trips g) (e : Pos × Pos) : e ∈ g.edges.map Prod.fst ↔ ∃ r ∈ routes, GoesOn (tourOf c r) e := by
  constructor
  · intro he
    obtain ⟨⟨e, i⟩, h1, rfl⟩ := List.mem_map.1 he
    obtain ⟨⟨r, h2, h3⟩, _⟩ := (h.edges e i).1 h1
    exact ⟨r, List.mem_of_getElem? h2, h3⟩
  · rintro ⟨r, h1, h2⟩
    classical
    obtain ⟨i, hi⟩ := List.mem_iff_getElem?.1 h1
    let P : Nat → Prop := fun j => ∃ r, routes[j]? = some r ∧ GoesOn (tourOf c r) e
    have hb : ∀ j, P j → j ≤ routes.length := fun j ⟨r, hr, _⟩ => (List.getElem?_eq_some_iff.1 hr).1.le
    have hP : P i := ⟨r, hi, h2⟩
    refine List.mem_map.2 ⟨(e, Nat.findGreatest P routes.length), (h.edges e _).2 ⟨Nat.findGreatest_spec (hb i hP) hP, fun j r' hj hr hg => ?_⟩, rfl⟩
    exact Nat.findGreatest_is_greatest hj (hb j ⟨r', hr, hg⟩) ⟨r', hr, hg⟩

/-- The nodes of the plot are exactly the ends of legs and of trips. -/
theorem C96_nodes (h : PlotOf E ident c routes trips g) (p : Pos) : p ∈ g.nodes.map Prod.fst ↔
    (∃ r ∈ routes, OnTheWay c r p) ∨ ∃ t ∈ trips, p = (E.trip t).origin.position ∨ p = (E.trip t).destination.position := by
  have hk : p ∈ (labelledEnds E ident trips).map Prod.fst ↔ ∃ t ∈ trips, p = (E.trip t).origin.position ∨ p = (E.trip t).destination.position := by
    simp [labelledEnds, eq_comm]
    constructor
    · rintro ⟨a, t, h1, h2 | h2⟩
      · exact ⟨t, h1, .inl h2.1⟩
      · exact ⟨t, h1, .inr h2.1⟩
    · rintro ⟨t, h1, h2 | h2⟩
      · exact ⟨'+' :: ident t, t, h1, .inl ⟨h2, rfl⟩⟩
      · exact ⟨'-' :: ident t, t, h1, .inr ⟨h2, rfl⟩⟩
  rw [← hk]
  constructor
  · intro hp
    obtain ⟨⟨p, t⟩, h1, rfl⟩ := List.mem_map.1 hp
    rcases (h.nodes p t).1 h1 with h2 | ⟨_, _, h2⟩
    · exact .inr (List.mem_map_of_mem (f := Prod.fst) h2.mem)
    · exact .inl h2
  · intro hp
    by_cases ht : p ∈ (labelledEnds E ident trips).map Prod.fst
    · obtain ⟨t, h1⟩ := lastEntry_exists ht
      exact List.mem_map.2 ⟨(p, t), (h.nodes p t).2 (.inl h1), rfl⟩
    · refine List.mem_map.2 ⟨(p, []), (h.nodes p []).2 (.inr ⟨fun e he hp => ht ?_, rfl, hp.resolve_right ht⟩), rfl⟩
      rw [← hp]
      exact List.mem_map_of_mem he

/-! ## C97 -/

/-- Every leg of a route is shown in the colour of that route. -/
def OwnColours (c : Core) (routes : List Nat) (g : Plot) : Prop :=
  ∀ (i r : Nat) (e : Pos × Pos), routes[i]? = some r → GoesOn (tourOf c r) e → (e, i) ∈ g.edges

/-- Every trip has its labels where it starts and where it ends. -/
def OwnLabels (E : Env) (ident : Nat → Text) (trips : List Nat) (g : Plot) : Prop :=
  ∀ t ∈ trips, ((E.trip t).origin.position, '+' :: ident t) ∈ g.nodes ∧ ((E.trip t).destination.position, '-' :: ident t) ∈ g.nodes

/-- The full claim C97: the plot of a good plan shows each leg in the colour of its route and labels both ends of each trip. -/
def PlotTells : Prop := ∀ (E : Env) (ident : Nat → Text) (h : Heap) (fleet routes trips : List Nat) (g : Plot), EnvOK E → GoodPlan E fleet trips h routes →
  graphPlot E ident h.core routes trips = .ok g → OwnColours h.core routes g ∧ OwnLabels E ident trips g

/-- No two routes share a leg. -/
def LegsApart (c : Core) (routes : List Nat) : Prop :=
  ∀ (i j r s : Nat) (e : Pos × Pos), routes[i]? = some r → routes[j]? = some s → GoesOn (tourOf c r) e → GoesOn (tourOf c s) e → i = j

/-- **C97, colours.** Legs are all shown in the colours of their routes exactly when no two routes share a leg; then the edges in the
colour of a route are exactly its legs. -/
theorem C97_colours_iff (h : PlotOf E ident c routes trips g) : (OwnColours c routes g ↔ LegsApart c routes) ∧
    (LegsApart c routes → ∀ (i r : Nat), routes[i]? = some r → ∀ e, (e, i) ∈ g.edges ↔ GoesOn (tourOf c r) e) := by
  have back : LegsApart c routes → OwnColours c routes g := fun hl i r e hr he =>
    (h.edges e i).2 ⟨⟨r, hr, he⟩, fun j s hj hs hg => by have := hl i j r s e hr hs he hg; omega⟩
  refine ⟨⟨fun ho i j r s e hr hs he hg => ?_, back⟩, fun hl i r hr e => ⟨fun he => ?_, fun he => back hl i r e hr he⟩⟩
  · have h1 := ho i r e hr he
    have h2 := ho j s e hs hg
    have := (dict_lookup h.edgesOnce e i).2 h1
    rw [(dict_lookup h.edgesOnce e j).2 h2] at this
    exact (Option.some.inj this).symm
  · obtain ⟨⟨s, h1, h2⟩, _⟩ := (h.edges e i).1 he
    rw [hr] at h1
    cases h1
    exact h2

/-- Wherever trips start or end, the same would be written. -/
def LabelsApart (E : Env) (ident : Nat → Text) (trips : List Nat) : Prop :=
  ∀ e ∈ labelledEnds E ident trips, ∀ f ∈ labelledEnds E ident trips, e.1 = f.1 → e.2 = f.2

/-- **C97, labels.** Both ends of all trips are labelled exactly when no two different labels belong to one position. -/
theorem C97_labels_iff (h : PlotOf E ident c routes trips g) : OwnLabels E ident trips g ↔ LabelsApart E ident trips := by
  have hown : OwnLabels E ident trips g ↔ ∀ e ∈ labelledEnds E ident trips, e ∈ g.nodes := by
    unfold OwnLabels labelledEnds
    constructor
    · intro ho e he
      obtain ⟨t, h1, h2⟩ := List.mem_flatMap.1 he
      simp only [List.mem_cons, List.not_mem_nil, or_false] at h2
      rcases h2 with rfl | rfl
      · exact (ho t h1).1
      · exact (ho t h1).2
    · exact fun ho t ht => ⟨ho _ (List.mem_flatMap.2 ⟨t, ht, by simp⟩), ho _ (List.mem_flatMap.2 ⟨t, ht, by simp⟩)⟩
  rw [hown]
  constructor
  · intro ho e he f hf hef
    have h1 := (dict_lookup h.nodesOnce e.1 e.2).2 (ho e he)
    have h2 := (dict_lookup h.nodesOnce f.1 f.2).2 (ho f hf)
    rw [hef, h2] at h1
    exact (Option.some.inj h1).symm
  · intro hl e he
    obtain ⟨t, ht⟩ := lastEntry_exists (List.mem_map_of_mem (f := Prod.fst) he)
    have : e.2 = t := hl e he (e.1, t) ht.mem rfl
    refine (h.nodes e.1 e.2).2 (.inl ?_)
    rw [this]
    exact ht

/-- **C97, what holds.** If no two routes share a leg and no position belongs to two labels, the plot tells routes and trips apart.
Missing: shared legs and positions, see `C97_colours_iff` and `C97_labels_iff`. -/
theorem C97_plot_tells_partial (h : graphPlot E ident c routes trips = .ok g) (hl : LegsApart c routes) (hp : LabelsApart E ident trips) :
    OwnColours c routes g ∧ OwnLabels E ident trips g :=
  ⟨(C97_colours_iff (plotOf_of_ok h)).1.2 hl, (C97_labels_iff (plotOf_of_ok h)).2 hp⟩

/-- The tour of a vehicle that serves nothing. -/
theorem idle_tour {v r : Nat} (hw : WellFormed c r) (hp : Proper E v (duties c r)) (h : tripsOf c r = []) :
    tourOf c r = [(E.vehicle v).origin.position, (E.vehicle v).destination.position] := by
  obtain ⟨mid, e, hm⟩ := hp
  have hpick : ∀ s ∈ (c.route r).stops, (c.stop s).pickups = [] := by
    intro s hs
    have := List.flatMap_eq_nil_iff.1 h (visitOf c s) (List.mem_map_of_mem hs)
    exact List.map_eq_nil_iff.1 this
  have hmid : mid = [] := by
    rw [List.eq_nil_iff_forall_not_mem]
    intro d hd
    have hd' : d ∈ duties c r := by rw [e]; simp [hd]
    obtain ⟨x, h1, rfl⟩ := List.mem_map.1 hd'
    obtain ⟨s, h2, rfl⟩ := List.mem_map.1 h1
    obtain ⟨t, h3 | h3⟩ := hm _ hd
    · have := congrArg Duty.picks h3
      simp [Visit.duty, visitOf, pickDuty, hpick s h2] at this
    · have := congrArg Duty.drops h3
      have hne : (c.stop s).deliveries ≠ [] := by
        intro h0
        simp [Visit.duty, visitOf, dropDuty, h0] at this
      obtain ⟨q, hq⟩ := List.exists_mem_of_ne_nil _ hne
      obtain ⟨pre, suf, h4⟩ := List.append_of_mem h2
      obtain ⟨_, _, u, h5, _, h6⟩ := hw.drop pre s suf h4 q hq
      rw [hpick u (by rw [h4]; simp [h5])] at h6
      cases h6
  have ht : tourOf c r = (duties c r).map Duty.pos := by
    unfold tourOf duties
    rw [List.map_map]
    rfl
  rw [ht, e, hmid]
  rfl

theorem two_of_filter {A : Type} {q : A → Bool} : ∀ {l : List A}, 2 ≤ (l.filter q).length →
    ∃ (i j : Nat) (a b : A), i < j ∧ l[i]? = some a ∧ l[j]? = some b ∧ q a = true ∧ q b = true
  | [], h => by simp at h
  | x :: l, h => by
    rw [List.filter_cons] at h
    split at h
    · rename_i hx
      obtain ⟨b, hb⟩ := List.exists_mem_of_length_pos (l := l.filter q) (by simp at h; omega)
      rw [List.mem_filter] at hb
      obtain ⟨j, hj⟩ := List.mem_iff_getElem?.1 hb.1
      exact ⟨0, j + 1, x, b, by omega, rfl, by simpa using hj, hx, hb.2⟩
    · obtain ⟨i, j, a, b, h1, h2, h3, h4⟩ := two_of_filter h
      exact ⟨i + 1, j + 1, a, b, by omega, by simpa using h2, by simpa using h3, h4⟩

/-- **C97 is false of the code**: vehicles that serve nothing go from depot to depot, and if they share their depots, as in all
Cordeau-Laporte files, also this leg. So in each good plan for two vehicles more than trips some leg is not shown in the colour of
its route. -/
theorem C97_spare_vehicles {h : Heap} {fleet job : List Nat} (hg : GoodPlan E fleet job h routes) {a b : Pos}
    (hv : ∀ v ∈ fleet, (E.vehicle v).origin.position = a ∧ (E.vehicle v).destination.position = b) (hn : job.length + 2 ≤ fleet.length)
    (hplot : graphPlot E ident h.core routes trips = .ok g) : ¬ OwnColours h.core routes g := by
  rw [(C97_colours_iff (plotOf_of_ok hplot)).1]
  intro hl
  have hcount : ∀ l : List Nat, (l.filter fun r => decide (tripsOf h.core r ≠ [])).length ≤ (l.flatMap (tripsOf h.core)).length := by
    intro l
    induction l with
    | nil => simp
    | cons r l ih =>
      rw [List.filter_cons, List.flatMap_cons, List.length_append]
      split
      · rename_i hr
        have := List.length_pos_iff.2 (of_decide_eq_true hr)
        rw [List.length_cons]
        omega
      · omega
  have hjob : (routes.flatMap (tripsOf h.core)).length ≤ job.length :=
    (List.subperm_of_subset hg.planning.trips fun t ht => hg.planning.job t ht).length_le
  have hlen : routes.length = fleet.length := by
    have := hg.planning.vehicles.length_eq
    rwa [List.length_map] at this
  have hsplit := List.length_eq_length_filter_add (l := routes) (fun r => decide (tripsOf h.core r = []))
  have hflip : (routes.filter fun r => !decide (tripsOf h.core r = [])) = routes.filter fun r => decide (tripsOf h.core r ≠ []) :=
    List.filter_congr fun r _ => by simp
  rw [hflip] at hsplit
  have := hcount routes
  obtain ⟨i, j, r, s, hij, hr, hs, hr0, hs0⟩ := two_of_filter (l := routes) (q := fun r => decide (tripsOf h.core r = [])) (by omega)
  have tour : ∀ r ∈ routes, tripsOf h.core r = [] → tourOf h.core r = [a, b] := by
    intro r hr h0
    obtain ⟨e1, e2⟩ := hv _ (hg.planning.vehicles.mem_iff.1 (List.mem_map_of_mem (f := fun r => (h.core.route r).vehicle) hr))
    rw [idle_tour (hg.planning.sound r hr).1 (hg.proper r hr) h0, e1, e2]
  have hab : GoesOn [a, b] (a, b) := ⟨0, rfl, rfl⟩
  have := hl i j r s (a, b) hr hs (by rw [tour r (List.mem_of_getElem? hr) (of_decide_eq_true hr0)]; exact hab)
    (by rw [tour s (List.mem_of_getElem? hs) (of_decide_eq_true hs0)]; exact hab)
  omega

/-- A tour that comes to no position twice, but may end where it starts. -/
def Simple (l : List Pos) : Prop :=
  ∀ i j : Nat, i < j → ∀ p, l[i]? = some p → l[j]? = some p → i = 0 ∧ j + 1 = l.length

theorem Simple.step {l l' : List Pos} (hs : Simple l) (hs' : Simple l') (h0 : l[0]? = l'[0]?) (hl : ∀ e, GoesOn l e → GoesOn l' e) {i : Nat} {a b : Pos}
    (ha : l[i]? = some a) (ha' : l'[i]? = some a) (hb : l[i + 1]? = some b) : l'[i + 1]? = some b := by
  obtain ⟨j, h1, h2⟩ := hl (a, b) ⟨i, ha, hb⟩
  simp only at h1 h2
  have hj : j + 1 < l'.length := (List.getElem?_eq_some_iff.1 h2).1
  have hi : i + 1 < l.length := (List.getElem?_eq_some_iff.1 hb).1
  rcases Nat.lt_trichotomy i j with h | h | h
  · have := hs' i j h a ha' h1
    omega
  · rw [h]; exact h2
  · obtain ⟨rfl, h4⟩ := hs' j i h a h1 ha'
    rw [← h0] at h1
    have := hs 0 i h a h1 ha
    omega

/-- Such a tour is determined by its start and its legs. -/
theorem Simple.unique {l l' : List Pos} (hs : Simple l) (hs' : Simple l') (h0 : l[0]? = l'[0]?) (hl : ∀ e, GoesOn l e ↔ GoesOn l' e) : l = l' := by
  refine List.ext_getElem? fun i => ?_
  induction i with
  | zero => exact h0
  | succ i ih =>
    cases ha : l[i]? with
    | none =>
      have h1 : l.length ≤ i := List.getElem?_eq_none_iff.1 ha
      have h2 : l'.length ≤ i := List.getElem?_eq_none_iff.1 (ih ▸ ha)
      rw [List.getElem?_eq_none (by omega), List.getElem?_eq_none (by omega)]
    | some a =>
      have ha' : l'[i]? = some a := ih ▸ ha
      cases hb : l[i + 1]? with
      | some b => exact (hs.step hs' h0 (fun e => (hl e).1) ha ha' hb).symm
      | none =>
        cases hb' : l'[i + 1]? with
        | none => rfl
        | some b =>
          have := hs'.step hs h0.symm (fun e => (hl e).2) ha' ha hb'
          rw [hb] at this
          cases this

/-- **C97, reading.** From a plot in which no leg is shared the tours can be read off: two plannings with the same plot, with tours that
come to no position twice (but may end where they start) and start at the same positions, have the same tours. -/
theorem C97_tours_can_be_read {E' : Env} {ident' : Nat → Text} {trips' : List Nat} (h : graphPlot E ident c routes trips = .ok g)
    (h' : graphPlot E' ident' c' routes' trips' = .ok g) (hl : LegsApart c routes) (hl' : LegsApart c' routes') {i r r' : Nat} (hr : routes[i]? = some r)
    (hr' : routes'[i]? = some r') (hs : Simple (tourOf c r)) (hs' : Simple (tourOf c' r')) (h0 : (tourOf c r)[0]? = (tourOf c' r')[0]?) :
    tourOf c r = tourOf c' r' :=
  hs.unique hs' h0 fun e => ((C97_colours_iff (plotOf_of_ok h)).2 hl i r hr e).symm.trans ((C97_colours_iff (plotOf_of_ok h')).2 hl' i r' hr' e)

/-! ## C98 -/

section

variable {σ : Type} {image : List Plot → Text} {plot : Py σ Plot} {w : World σ} {d : σ} {p : Text}

/-- **C98, saving.** The image shows all that was drawn on the current figure and then the new plot. -/
theorem C98_saved (h : plot w.data = (.ok g, d)) : graphStore image (some p) plot w =
    (.ok (), { w with data := d, figure := w.figure ++ [g], file := fun q => if q = p then some (image (w.figure ++ [g])) else w.file q }) := by
  unfold graphStore
  rw [Py.bind_ok (a := g) (s' := { w with data := d }) (by simp only [onData, h]), Py.modify_bind]
  rfl

/-- **C98, showing.** Likewise for what is shown; then there is no current figure. -/
theorem C98_shown (h : plot w.data = (.ok g, d)) : graphStore image none plot w =
    (.ok (), { w with data := d, figure := [], shown := w.shown ++ [w.figure ++ [g]] }) := by
  unfold graphStore
  rw [Py.bind_ok (a := g) (s' := { w with data := d }) (by simp only [onData, h]), Py.modify_bind]
  rfl

/-- If the plot cannot be made, nothing is saved, shown or drawn. -/
theorem C98_error {e : Err} {path : Option Text} (h : plot w.data = (.error e, d)) : graphStore image path plot w = (.error e, { w with data := d }) := by
  unfold graphStore
  rw [Py.bind_error (s' := { w with data := d }) (e := e) (by simp only [onData, h])]

/-- The full claim C98: the image that is saved is one of the result. -/
def SavesTheResult (image : List Plot → Text) : Prop := ∀ (σ : Type) (plot : Py σ Plot) (w : World σ) (d : σ) (g : Plot) (p : Text),
  plot w.data = (.ok g, d) → (graphStore image (some p) plot w).2.file p = some (image [g])

/-- **C98, what holds.** It is if nothing was drawn on the current figure before. Missing: see `C98_claim_fails`. -/
theorem C98_saves_the_result_partial (h : plot w.data = (.ok g, d)) (hf : w.figure = []) :
    (graphStore image (some p) plot w).2.file p = some (image [g]) := by
  rw [C98_saved h, hf]
  simp

/-- **C98 is false of the code**: saving does not end the figure, so that a second image shows the first plot too. -/
theorem C98_second_image {plot' : Py σ Plot} {g' : Plot} {d' : σ} {p' : Text} (h : plot w.data = (.ok g, d)) (h' : plot' d = (.ok g', d')) (hf : w.figure = []) :
    ∃ w', (do graphStore image (some p) plot; graphStore image (some p') plot') w = (.ok (), w') ∧ w'.file p' = some (image [g, g']) := by
  refine ⟨_, (Py.bind_ok (C98_saved h)).trans (C98_saved (plot := plot') (g := g') (d := d') h'), ?_⟩
  simp [hf]

/-- Hence the claim fails for images that show more than one plot. -/
theorem C98_claim_fails (himage : ∃ g : Plot, image [g, g] ≠ image [g]) : ¬ SavesTheResult image := by
  intro h
  obtain ⟨g, hg⟩ := himage
  have := h Unit (pure g) ⟨(), fun _ => none, [], [g], []⟩ () g [] rfl
  rw [C98_saved (plot := pure g) (d := ()) (g := g) rfl] at this
  simp at this
  exact hg this

/-- Where the plot is shown instead, a later one is not affected. -/
theorem C98_shown_then_saved {plot' : Py σ Plot} {g' : Plot} {d' : σ} {p' : Text} (h : plot w.data = (.ok g, d)) (h' : plot' d = (.ok g', d')) :
    ∃ w', (do graphStore image none plot; graphStore image (some p') plot') w = (.ok (), w') ∧ w'.file p' = some (image [g']) := by
  refine ⟨_, (Py.bind_ok (C98_shown h)).trans (C98_saved (plot := plot') (g := g') (d := d') h'), ?_⟩
  simp

end

/-! ## Cases -/

/-- Three vehicles at one depot and one trip: the hypotheses of `C97_spare_vehicles` can be met. -/
theorem C97_claim_fails : ¬ PlotTells := by
  intro h
  obtain ⟨l, h', e⟩ := insertion_returns (fuel := 2) (S := fun _ => plainSettings demoEnv [0, 1, 2] [0] .intensive 1) demoEnv_ok (fleet := [0, 1, 2]) (job := [0]) (by simp) (by decide) (by decide)
    (fun _ => ⟨rfl, rfl, rfl, plainSettings_fair _ _ _ _, Nat.one_pos⟩) empty_noDangling .dialARide (fun _ _ _ _ h => nomatch h) (by decide)
  rcases insertion_planned (fuel := 2) (S := fun _ => plainSettings demoEnv [0, 1, 2] [0] .intensive 1) demoEnv_ok (fleet := [0, 1, 2]) (job := [0]) (by simp) (by decide) (by decide)
    (fun _ => ⟨rfl, rfl, rfl, plainSettings_fair _ _ _ _, Nat.one_pos⟩) empty_noDangling .dialARide with ⟨l', h2, e', hg⟩ | ⟨h2, e'⟩
  · obtain ⟨g, hp, _⟩ := C96_plot_made demoEnv decimal h2.core l' [0]
    exact C97_spare_vehicles hg (a := [0]) (b := [0]) (fun _ _ => ⟨rfl, rfl⟩) (by decide) hp (h demoEnv decimal h2 [0, 1, 2] l' [0] g demoEnv_ok hg hp).1
  · have := e'.symm.trans e
    cases this

/-- The plot of a tour with a trip and a vehicle that stays at its depot. -/
def swapPlot : Plot := ⟨[([0], []), ([9], ['+', '0']), ([10], ['-', '0']), ([8], [])],
  [(([0], [9]), 0), (([9], [10]), 0), (([10], [0]), 0), (([8], [8]), 1)]⟩

theorem swapPlot_made : graphPlot swapEnv decimal swap2.core [1, 2] [0] = .ok swapPlot := by
  have : (graphPlot swapEnv decimal swap2.core [1, 2] [0]).toOption = some swapPlot := by decide +kernel
  revert this
  cases graphPlot swapEnv decimal swap2.core [1, 2] [0] with
  | error e => intro h; cases h
  | ok g => intro h; cases h; rfl

/-- The plot is one of the routes and the trip. -/
example : PlotOf swapEnv decimal swap2.core [1, 2] [0] swapPlot := plotOf_of_ok swapPlot_made

theorem swap_tours : tourOf swap2.core 1 = [[0], [9], [10], [0]] ∧ tourOf swap2.core 2 = [[8], [8]] := by decide +kernel

/-- Legs and labels are apart, so colours and labels are right. -/
example : OwnColours swap2.core [1, 2] swapPlot ∧ OwnLabels swapEnv decimal [0] swapPlot := by
  refine C97_plot_tells_partial swapPlot_made ?_ ?_
  · have own : OwnColours swap2.core [1, 2] swapPlot := by
      intro i r e hr he
      match i, hr with
      | 0, hr =>
        cases hr
        rw [swap_tours.1] at he
        obtain ⟨j, h1, h2⟩ := he
        obtain ⟨a, b⟩ := e
        have hj : j < 3 := by have := (List.getElem?_eq_some_iff.1 h2).1; simp at this; omega
        interval_cases j <;> simp at h1 h2 <;> subst h1 <;> subst h2 <;> decide +kernel
      | 1, hr =>
        cases hr
        rw [swap_tours.2] at he
        obtain ⟨j, h1, h2⟩ := he
        obtain ⟨a, b⟩ := e
        have hj : j < 1 := by have := (List.getElem?_eq_some_iff.1 h2).1; simp at this; omega
        interval_cases j
        simp at h1 h2
        subst h1; subst h2
        decide +kernel
    exact (C97_colours_iff (plotOf_of_ok swapPlot_made)).1.1 own
  · unfold LabelsApart
    decide +kernel

/-- Tours that come to no position twice, but may end where they start. -/
example : Simple (tourOf swap2.core 1) ∧ Simple (tourOf swap2.core 2) := by
  rw [swap_tours.1, swap_tours.2]
  constructor
  · intro i j hij p h1 h2
    have hj : j < 4 := by have := (List.getElem?_eq_some_iff.1 h2).1; simpa using this
    interval_cases j <;> interval_cases i <;> simp at h1 h2 ⊢ <;> subst h1 <;> simp at h2
  · intro i j hij p h1 h2
    have hj : j < 2 := by have := (List.getElem?_eq_some_iff.1 h2).1; simpa using this
    interval_cases j
    · omega
    · exact ⟨by omega, rfl⟩

/-- Two plannings one after the other: the second image shows both plots. -/
example (image : List Plot → Text) : ∃ w', (do
    graphStore image (some ['a']) (fun h : Heap => (graphPlot swapEnv decimal h.core [1, 2] [0], h))
    graphStore image (some ['b']) (fun h : Heap => (graphPlot swapEnv decimal h.core [1, 2] [0], h))) ⟨swap2, fun _ => none, [], [], []⟩ = (.ok (), w') ∧
    w'.file ['b'] = some (image [swapPlot, swapPlot]) :=
  C98_second_image (d := swap2) (d' := swap2) (by rw [swapPlot_made]) (by rw [swapPlot_made]) rfl

example : ∃ g : Plot, (fun l : List Plot => decimal l.length) [g, g] ≠ (fun l : List Plot => decimal l.length) [g] := ⟨⟨[], []⟩, by decide +kernel⟩

end Jinete
