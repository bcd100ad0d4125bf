import Verif.Proofs.Realloc
import Verif.Props.TwoOpt

/-!
# C40, C75: reallocation
-/

set_option autoImplicit false

namespace Jinete

variable {E : Env}

/-! ## Duties without and with a trip -/

theorem perm_pair {l : List Nat} (hn : l.Nodup) {a b : Nat} (ha : a ∈ l) (hb : b ∈ l) (hab : a ≠ b) :
    l.Perm (l.filter (fun x => decide (x ≠ a ∧ x ≠ b)) ++ [a, b]) := by
  refine (List.perm_ext_iff_of_nodup hn ?_).2 fun x => ?_
  · refine List.nodup_append.2 ⟨hn.filter _, by simp [hab], ?_⟩
    rintro x hx y hy rfl
    have := of_decide_eq_true (List.mem_filter.1 hx).2
    simp at hy
    tauto
  · simp only [List.mem_append, List.mem_filter, decide_eq_true_eq, List.mem_cons, List.not_mem_nil, or_false]
    constructor
    · intro hx
      by_cases h1 : x = a
      · exact .inr (.inl h1)
      · by_cases h2 : x = b
        · exact .inr (.inr h2)
        · exact .inl ⟨hx, h1, h2⟩
    · rintro (h | rfl | rfl)
      · exact h.1
      · exact ha
      · exact hb

theorem withoutTrip_single {t : Nat} {l : List Duty} (hs : SingleVisits l) : SingleVisits (withoutTrip t l) := by
  refine ⟨fun d hd => hs.1 d (List.mem_filter.1 hd).1, fun d hd => ?_⟩
  rcases List.eq_nil_or_concat l with h0 | ⟨q, z, h0⟩
  · subst h0; simp [withoutTrip] at hd
  · rw [List.concat_eq_append] at h0
    subst h0
    have hz := hs.2 z (by simp)
    have e : withoutTrip t (q ++ [z]) = withoutTrip t q ++ [z] := by
      unfold withoutTrip
      rw [List.filter_append]
      simp [hz.1, hz.2]
    rw [e, List.getLast?_concat] at hd
    cases hd
    exact hz

theorem withTrip_single {t i j : Nat} {l : List Duty} (hs : SingleVisits l) (hj : j < l.length) :
    SingleVisits (withTrip E t i j l) := by
  unfold withTrip
  refine ⟨?_, ?_⟩
  · intro d hd
    simp only [List.mem_append, List.mem_cons] at hd
    rcases hd with h | rfl | h | rfl | h
    · exact hs.1 d (List.mem_of_mem_take h)
    · simp [pickDuty]
    · exact hs.1 d (List.mem_of_mem_take (List.mem_of_mem_drop h))
    · simp [dropDuty]
    · exact hs.1 d (List.mem_of_mem_drop h)
  · intro d hd
    refine hs.2 d ?_
    have hne : l.drop j ≠ [] := by
      intro h0
      have := congrArg List.length h0
      simp at this; omega
    have e : l.getLast? = (l.drop j).getLast? := by
      conv_lhs => rw [← List.take_append_drop j l]
      rw [List.getLast?_append_of_ne_nil _ hne]
    have hd' : (l.drop j).getLast? = some d := by
      have e1 : (l.take (i + 1) ++ pickDuty E t :: ((l.take j).drop (i + 1) ++ dropDuty E t :: l.drop j)) =
          (l.take (i + 1) ++ pickDuty E t :: ((l.take j).drop (i + 1) ++ [dropDuty E t])) ++ l.drop j := by simp
      rw [e1, List.getLast?_append_of_ne_nil _ hne] at hd
      exact hd
    rw [e, hd']
    rfl

/-- Taking a trip out of duties that each serve at most one trip. -/
theorem withoutTrip_picks {t : Nat} {l : List Duty} (hs : SingleVisits l) (hn : (l.flatMap Duty.picks).Nodup)
    (ht : t ∈ l.flatMap Duty.picks) : (t :: (withoutTrip t l).flatMap Duty.picks).Perm (l.flatMap Duty.picks) := by
  have hsub : ((withoutTrip t l).flatMap Duty.picks).Sublist (l.flatMap Duty.picks) := by
    rw [List.flatMap_def, List.flatMap_def]
    exact (List.filter_sublist.map _).flatten
  have hnt : t ∉ (withoutTrip t l).flatMap Duty.picks := by
    intro h
    obtain ⟨d, hd, h1⟩ := List.mem_flatMap.1 h
    exact (of_decide_eq_true (List.mem_filter.1 hd).2).1 h1
  refine (List.perm_ext_iff_of_nodup (List.nodup_cons.2 ⟨hnt, hsub.nodup hn⟩) hn).2 fun x => ?_
  rw [List.mem_cons]
  constructor
  · rintro (rfl | h)
    · exact ht
    · exact hsub.subset h
  · intro h
    by_cases hx : x = t
    · exact .inl hx
    · right
      obtain ⟨d, hd, h1⟩ := List.mem_flatMap.1 h
      refine List.mem_flatMap.2 ⟨d, List.mem_filter.2 ⟨hd, decide_eq_true ?_⟩, h1⟩
      have h2 := hs.1 d hd
      have h3 := List.length_pos_of_mem h1
      constructor
      · intro h4
        match hp : d.picks, h2 with
        | [], _ => rw [hp] at h1; simp at h1
        | [a], _ =>
          rw [hp] at h1 h4
          simp at h1 h4
          exact hx (h1.trans h4.symm)
        | _ :: _ :: _, h5 => simp at h5; omega
      · intro h4
        have := List.length_pos_of_mem h4
        omega

/-! ## A pass -/

/-- What a pass of reallocation on the routes `rs` of `h` yields. -/
structure ReallocResult (E : Env) (k : Objective) (md : Mode) (R : Nat → Prop) (h : Heap) (rs l : List Nat) (h' : Heap) : Prop where
  mem : ∀ q ∈ l, Upto R h h' q
  work : SameWork h.core rs h'.core l
  single : ∀ q ∈ l, SingleVisits (duties h'.core q)
  outcome : l = rs ∨ (lastComponent E k (rs.map (planOf E h.core)) < lastComponent E k (l.map (planOf E h'.core)) ∧
    ∃ o d t i j, Reallocated E h.core rs h'.core l o d t i j)
  feasible : ∀ q ∈ l, q ∈ rs ∨ FeasibleItinerary E (E.vehicle (h'.core.route q).vehicle) (itinerary h'.core q) ∨
    RouteVerdict E md h'.core q true

theorem BestMove.result {k : Objective} {md : Mode} {R : Nat → Prop} {h h' : Heap} {rs l : List Nat} {f : Found}
    (inv : Inv E md R h) (hrs : ∀ r ∈ rs, R r) (hv : (vehiclesOf h.core rs).Nodup) (hsv : ∀ r ∈ rs, SingleVisits (duties h.core r))
    (a : Along E md R rs h h h')
    (b : BestMove E k md R rs (lastComponent E k (rs.map (planOf E h.core))) h h' f)
    (hl : l = (rs.filter fun r => decide ((h'.core.route r).vehicle ∉ vehiclesOf h'.core f.overwritten)) ++ f.overwritten) :
    ReallocResult E k md R h rs l h' := by
  have st : SameT E R h.core h'.core := a.same.subset fun q hq => .inl hq
  cases b with
  | none e =>
    have : l = rs := by
      rw [hl, e]
      simp [vehiclesOf]
    subst this
    refine ⟨fun q hq => .inl (hrs q hq), ⟨?_, ?_⟩, fun q hq => by rw [st.duties (hrs q hq)]; exact hsv q hq, .inl rfl,
      fun q hq => .inl hq⟩
    · exact List.Perm.of_eq (List.map_congr_left fun q hq => by rw [st.route q (hrs q hq)])
    · exact List.Perm.of_eq (List.flatMap_congr fun q hq => st.tripsOf (hrs q hq))
  | move o d t i j n m ho hd hod ht hij hj over better val hnm hn hm vn vm dn dm headn fn fm =>
    have hrn : rs.Nodup := List.Nodup.of_map _ hv
    have inj : ∀ r ∈ rs, ∀ q ∈ rs, (h.core.route r).vehicle = (h.core.route q).vehicle → r = q := fun r hr q hq e =>
      List.inj_on_of_nodup_map hv hr hq e
    have hfil : (rs.filter fun r => decide ((h'.core.route r).vehicle ∉ vehiclesOf h'.core f.overwritten)) =
        rs.filter fun r => decide (r ≠ o ∧ r ≠ d) := by
      apply List.filter_congr
      intro r hr
      rw [decide_eq_decide, over]
      simp only [vehiclesOf, List.map_cons, List.map_nil, List.mem_cons, List.not_mem_nil, or_false, vn, vm, st.route r (hrs r hr), not_or]
      constructor
      · rintro ⟨h1, h2⟩
        exact ⟨fun e => h1 (by rw [e]), fun e => h2 (by rw [e])⟩
      · rintro ⟨h1, h2⟩
        exact ⟨fun e => h1 (inj r hr o ho e), fun e => h2 (inj r hr d hd e)⟩
    rw [hfil, over] at hl
    have hp := perm_pair hrn ho hd hod
    have hmem : ∀ r ∈ rs.filter (fun r => decide (r ≠ o ∧ r ≠ d)), r ∈ rs := fun r hr => (List.mem_filter.1 hr).1
    have wo := inv.ok.wf o (hrs o ho)
    have wd := inv.ok.wf d (hrs d hd)
    refine ⟨?_, ⟨?_, ?_⟩, ?_, .inr ⟨?_, o, d, t, i, j, ho, hd, hod, ht, hij, hj, ?_, ?_, ?_⟩, ?_⟩
    · intro q hq
      rw [hl] at hq
      simp only [List.mem_append, List.mem_cons, List.not_mem_nil, or_false] at hq
      rcases hq with hq | rfl | rfl
      · exact .inl (hrs q (hmem q hq))
      · exact .inr hn
      · exact .inr hm
    · rw [hl]
      refine List.Perm.trans ?_ ((hp.map _).symm)
      rw [List.map_append, List.map_append]
      simp only [List.map_cons, List.map_nil, vn, vm]
      exact List.Perm.of_eq (congrArg (· ++ _) (List.map_congr_left fun r hr => by rw [st.route r (hrs r (hmem r hr))]))
    · rw [hl]
      refine List.Perm.trans ?_ ((hp.flatMap_right _).symm)
      rw [List.flatMap_append, List.flatMap_append]
      refine List.Perm.append (List.Perm.of_eq (List.flatMap_congr fun r hr => st.tripsOf (hrs r (hmem r hr)))) ?_
      simp only [List.flatMap_cons, List.flatMap_nil, List.append_nil]
      rw [picks_duties h'.core n, picks_duties h'.core m, dn, dm]
      have p1 := withoutTrip_picks (t := t) (hsv o ho) (by rw [← picks_duties]; exact wo.trips) (by rw [← picks_duties]; exact ht)
      have p2 := withTrip_picks E (t := t) (l := duties h.core d) hij
      rw [picks_duties h.core o, picks_duties h.core d]
      refine (List.Perm.append_left _ p2).trans ?_
      refine List.perm_middle.trans ?_
      rw [← List.cons_append]
      exact p1.append_right _
    · intro q hq
      rw [hl] at hq
      simp only [List.mem_append, List.mem_cons, List.not_mem_nil, or_false] at hq
      rcases hq with hq | rfl | rfl
      · rw [st.duties (hrs q (hmem q hq))]; exact hsv q (hmem q hq)
      · rw [dn]; exact withoutTrip_single (hsv o ho)
      · rw [dm]; exact withTrip_single (hsv d hd) hj
    · refine lt_of_lt_of_eq better ?_
      rw [val, lastComponent_eq, lastComponent_eq, hl, (hp.map _).sum_eq, List.map_append, List.map_append, List.sum_append, List.sum_append]
      have : (rs.filter fun r => decide (r ≠ o ∧ r ≠ d)).map (lastV E k h'.core) =
          (rs.filter fun r => decide (r ≠ o ∧ r ≠ d)).map (lastV E k h.core) :=
        List.map_congr_left fun r hr => st.lastV (hrs r (hmem r hr)) (inv.ok.wf r (hrs r (hmem r hr)))
      rw [this]
      simp only [List.map_cons, List.map_nil, List.sum_cons, List.sum_nil]
      ring
    · exact ⟨n, by rw [hl]; simp, vn, dn⟩
    · exact ⟨m, by rw [hl]; simp, vm, dm⟩
    · intro r hr h1 h2
      exact ⟨r, by rw [hl]; exact List.mem_append_left _ (List.mem_filter.2 ⟨hr, decide_eq_true ⟨h1, h2⟩⟩),
        by rw [st.route r (hrs r hr)], st.duties (hrs r hr)⟩
    · intro q hq
      rw [hl] at hq
      simp only [List.mem_append, List.mem_cons, List.not_mem_nil, or_false] at hq
      rcases hq with hq | rfl | rfl
      · exact .inl (hmem q hq)
      · exact .inr (.inl fn)
      · exact .inr (.inr fm)

/-! ## On a deep copy -/

/-- What a run of reallocation yields, told about the originals; `R` are the routes known before. -/
structure ReallocDone (E : Env) (k : Objective) (md : Mode) (R : Nat → Prop) (h : Heap) (rs l : List Nat) (h' : Heap) : Prop where
  inv : Inv E md (fun q => R q ∨ q ∈ l) h'
  alone : SameCore R h.core h'.core
  fresh : ∀ q ∈ l, h.core.nRoute ≤ q
  work : SameWork h.core rs h'.core l
  single : ∀ q ∈ l, SingleVisits (duties h'.core q)
  outcome : (l.Perm (rs.map (· + h.core.nRoute)) ∧
      ∀ r ∈ rs, (h'.core.route (r + h.core.nRoute)).vehicle = (h.core.route r).vehicle ∧
        duties h'.core (r + h.core.nRoute) = duties h.core r) ∨
    (lastComponent E k (rs.map (planOf E h.core)) < lastComponent E k (l.map (planOf E h'.core)) ∧
      ∃ o d t i j, Reallocated E h.core rs h'.core l o d t i j)
  feasible : ∀ q ∈ l, (∃ r ∈ rs, q = r + h.core.nRoute ∧ SameT E (· = q) h.double.core h'.core) ∨
    FeasibleItinerary E (E.vehicle (h'.core.route q).vehicle) (itinerary h'.core q) ∨ RouteVerdict E md h'.core q true

theorem improve_reallocation {k : Objective} {md : Mode} (hE : EnvOK E) (hx : md = .exact → ∀ t, (E.trip t).timeout = .inf)
    {R : Nat → Prop} {h : Heap} {rs : List Nat} (inv : Inv E md R h) (hrs : ∀ r ∈ rs, R r)
    (hv : (rs.map fun r => (h.core.route r).vehicle).Nodup)
    (ht : (rs.flatMap (tripsOf h.core)).Nodup) (hs : ∀ r ∈ rs, SingleVisits (duties h.core r)) {order : List Nat → List Nat}
    (ho : ∀ l, (order l).Perm l) {draw : Nat → Nat → Option (List (Nat × Nat))} (hdr : GoodDraws draw) :
    ∃ l h', (∀ draw', (∀ r ∈ rs, ∀ c, draw' c (h.core.route r).stops.length = draw c (h.core.route r).stops.length) →
      improveWith E order (reallocation E k draw') rs h = (.ok l, h')) ∧ ReallocDone E k md R h rs l h' := by
  have hwfR := inv.ok.wf
  have hwf : ∀ r ∈ rs, WellFormed h.core r := fun r hr => hwfR r (hrs r hr)
  have hcore : ∀ r ∈ rs, (h.double.core.route (r + h.core.nRoute)).vehicle = (h.core.route r).vehicle ∧
      itinerary h.double.core (r + h.core.nRoute) = itinerary h.core r := fun r hr =>
    ⟨by rw [double_route (hwf r hr)]; rfl, double_itinerary (hwf r hr)⟩
  have hdut : ∀ r ∈ rs, duties h.double.core (r + h.core.nRoute) = duties h.core r := fun r hr => by
    unfold duties; rw [(hcore r hr).2]
  have htri : ∀ r ∈ rs, tripsOf h.double.core (r + h.core.nRoute) = tripsOf h.core r := fun r hr => by
    unfold tripsOf; rw [(hcore r hr).2]
  have hplan : ∀ r ∈ rs, planOf E h.double.core (r + h.core.nRoute) = planOf E h.core r := fun r hr => by
    unfold planOf; rw [(hcore r hr).1, (hcore r hr).2]
  have hkeep : SameCore R h.core h.double.core := ((double_below h).keeps hwfR).core
  have hp := ho (rs.map (· + h.core.nRoute))
  have hmem : ∀ {r}, r ∈ order (rs.map (· + h.core.nRoute)) ↔ r ∈ rs.map (· + h.core.nRoute) := fun {r} => hp.mem_iff
  have hback : ∀ r ∈ order (rs.map (· + h.core.nRoute)), ∃ q ∈ rs, r = q + h.core.nRoute := by
    intro r hr
    obtain ⟨q, hq, rfl⟩ := List.mem_map.1 (hmem.1 hr)
    exact ⟨q, hq, rfl⟩
  obtain ⟨l, h', R2, e, i2, hl, c1, c2, c3, c4, c5, c6, c7⟩ := improveWith_run (E := E) (md := md) hE inv ho
    (P := fun step => ∃ draw', (∀ r ∈ rs, ∀ c, draw' c (h.core.route r).stops.length = draw c (h.core.route r).stops.length) ∧
      step = reallocation E k draw') (rs := rs) hrs
    (Q := fun R2 l c => SameCore R h.core c ∧ (∀ q, R q → R2 q) ∧ (∀ q ∈ l, h.core.nRoute ≤ q) ∧
      SameWork h.core rs c l ∧ (∀ q ∈ l, SingleVisits (duties c q)) ∧
      ((l.Perm (rs.map (· + h.core.nRoute)) ∧ ∀ r ∈ rs, (c.route (r + h.core.nRoute)).vehicle = (h.core.route r).vehicle ∧
        duties c (r + h.core.nRoute) = duties h.core r) ∨
        (lastComponent E k (rs.map (planOf E h.core)) < lastComponent E k (l.map (planOf E c)) ∧
          ∃ o d t i j, Reallocated E h.core rs c l o d t i j)) ∧
      (∀ q ∈ l, (∃ r ∈ rs, q = r + h.core.nRoute ∧ SameT E (· = q) h.double.core c) ∨
        FeasibleItinerary E (E.vehicle (c.route q).vehicle) (itinerary c q) ∨ RouteVerdict E md c q true)) (by
      intro h1 e1 inv1
      have hcop : ∀ r ∈ order (rs.map (· + h.core.nRoute)), WithCopies R h.core.nRoute r := by
        intro r hr
        obtain ⟨q, hq, rfl⟩ := hback r hr
        exact .inr ⟨q, hrs q hq, rfl⟩
      have hmapv : (order (rs.map (· + h.core.nRoute))).map (fun r => (h1.core.route r).vehicle) |>.Perm
          (rs.map fun r => (h.core.route r).vehicle) := by
        refine (hp.map _).trans (List.Perm.of_eq ?_)
        rw [e1, List.map_map]
        exact List.map_congr_left fun r hr => (hcore r hr).1
      have hmapt : ((order (rs.map (· + h.core.nRoute))).flatMap (tripsOf h1.core)).Perm (rs.flatMap (tripsOf h.core)) := by
        refine (hp.flatMap_right _).trans (List.Perm.of_eq ?_)
        rw [e1, List.flatMap_map]
        exact List.flatMap_congr fun r hr => htri r hr
      have hmapp : ((order (rs.map (· + h.core.nRoute))).map (planOf E h1.core)).Perm (rs.map (planOf E h.core)) := by
        refine (hp.map _).trans (List.Perm.of_eq ?_)
        rw [e1, List.map_map]
        exact List.map_congr_left fun r hr => hplan r hr
      have hdv : (vehiclesOf h1.core (order (rs.map (· + h.core.nRoute)))).Nodup := hmapv.nodup_iff.2 hv
      have hsv : ∀ r ∈ order (rs.map (· + h.core.nRoute)), SingleVisits (duties h1.core r) := by
        intro r hr
        obtain ⟨q, hq, rfl⟩ := hback r hr
        rw [e1, hdut q hq]; exact hs q hq
      have hdis : ∀ o ∈ order (rs.map (· + h.core.nRoute)), ∀ d ∈ order (rs.map (· + h.core.nRoute)), o ≠ d →
          ∀ t ∈ tripsOf h1.core o, t ∉ tripsOf h1.core d := by
        intro o ho' d hd' hne t h2 h3
        have hn := hmapt.nodup_iff.2 ht
        rw [List.nodup_flatMap] at hn
        have hpw := hn.2
        have : Std.Symm (Function.onFun List.Disjoint (tripsOf h1.core)) := ⟨fun a b hab => List.Disjoint.symm hab⟩
        exact (hpw.forall ho' hd' hne) h2 h3
      obtain ⟨f, h2, l, e2, al, bm, hl⟩ := reallocation_run (k := k) hE hx inv1 hcop hsv hdis hdr
      have hsteps : ∀ step, (∃ draw', (∀ r ∈ rs, ∀ c, draw' c (h.core.route r).stops.length = draw c (h.core.route r).stops.length) ∧
          step = reallocation E k draw') → step (order (rs.map (· + h.core.nRoute))) h1 = (.ok l, h2) := by
        rintro _ ⟨draw', hd, rfl⟩
        refine e2 draw' fun r hr c => ?_
        obtain ⟨q, hq, rfl⟩ := hback r hr
        rw [e1, double_stops (hwf q hq), List.length_map]
        exact hd q hq c
      have res := bm.result inv1 hcop hdv hsv al hl
      have hheads : ∀ q, R q → ∀ r ∈ order (rs.map (· + h.core.nRoute)), (h1.core.route q).stops.head? ≠ (h1.core.route r).stops.head? := by
        intro q hq r hr heq
        obtain ⟨r0, hr0, rfl⟩ := hback r hr
        rw [e1, hkeep.route q hq, double_stops (hwf r0 hr0)] at heq
        cases hst : (h.core.route q).stops with
        | nil => have := (hwfR q hq).length; rw [hst] at this; simp at this
        | cons s t =>
          rw [hst, List.head?_map] at heq
          cases hst2 : (h.core.route r0).stops with
          | nil => rw [hst2] at heq; simp at heq
          | cons s2 t2 =>
            rw [hst2] at heq
            simp at heq
            have := (hwfR q hq).alloc s (by rw [hst]; simp)
            omega
      have hsame : SameT E (fun q => R q ∨ q ∈ order (rs.map (· + h.core.nRoute))) h.double.core h2.core := by
        have := al.same
        rw [e1] at this
        refine this.subset ?_
        rintro q (hq | hq)
        · exact .inl (.inl hq)
        · exact .inl (hcop q hq)
      refine ⟨l, h2, _, hsteps, al.inv, res.mem, ?_, fun q hq => .inl (.inl hq), ?_, ⟨res.work.vehicles.trans hmapv, res.work.trips.trans hmapt⟩,
        res.single, ?_, ?_⟩
      · have := al.others
        rw [e1] at this
        refine hkeep.trans (this.subset fun q hq => ⟨.inl (.inl hq), fun r hr => ?_⟩)
        have := hheads q hq r hr
        rwa [e1] at this
      · intro q hq
        rcases hl ▸ hq |> List.mem_append.1 with h0 | h0
        · obtain ⟨r, hr, rfl⟩ := hback q (List.mem_filter.1 h0).1
          omega
        · have : h1.core.nRoute ≤ q := by
            cases bm with
            | none e => rw [e] at h0; simp at h0
            | move o d t i j n m _ _ _ _ _ _ over _ _ _ hn hm =>
              rw [over] at h0
              simp at h0
              rcases h0 with rfl | rfl
              · exact hn.1
              · exact hm.1
          rw [e1] at this
          have e3 : h.double.core.nRoute = h.core.nRoute + h.core.nRoute := rfl
          omega
      · rcases res.outcome with h0 | ⟨h0, o, d, t, i, j, r1, r2, r3, r4, r5, r6, r7, r8, r9⟩
        · left
          refine ⟨by rw [h0]; exact hp, fun r hr => ?_⟩
          have hm : r + h.core.nRoute ∈ order (rs.map (· + h.core.nRoute)) := hmem.2 (List.mem_map.2 ⟨r, hr, rfl⟩)
          rw [hsame.route _ (.inr hm), hsame.duties (.inr hm)]
          exact ⟨(hcore r hr).1, hdut r hr⟩
        · right
          refine ⟨?_, ?_⟩
          · have : lastComponent E k (rs.map (planOf E h.core)) =
                lastComponent E k ((order (rs.map (· + h.core.nRoute))).map (planOf E h1.core)) := by
              unfold lastComponent; rw [planningValue_perm hmapp]
            rw [this]; exact h0
          · obtain ⟨o', ho', rfl⟩ := hback o r1
            obtain ⟨d', hd', rfl⟩ := hback d r2
            rw [e1, htri o' ho'] at r4
            rw [e1, hdut d' hd'] at r6 r8
            rw [(hcore d' hd').1] at r8
            rw [e1, (hcore o' ho').1, hdut o' ho'] at r7
            refine ⟨o', d', t, i, j, ho', hd', fun e => r3 (by rw [e]), r4, r5, r6, r7, r8, fun r hr n1 n2 => ?_⟩
            have := r9 (r + h.core.nRoute) (hmem.2 (List.mem_map.2 ⟨r, hr, rfl⟩)) (by omega) (by omega)
            rw [e1, (hcore r hr).1, hdut r hr] at this
            exact this
      · intro q hq
        rcases res.feasible q hq with h0 | h0
        · obtain ⟨r, hr, hq'⟩ := hback q h0
          exact .inl ⟨r, hr, hq', hsame.subset fun x hx => .inr (hx ▸ h0)⟩
        · exact .inr h0)
  exact ⟨l, h', fun draw' hd => e _ ⟨draw', hd, rfl⟩, i2.subset (by rintro q (hq | hq); exacts [c2 q hq, hl q hq]), c1, c3, c4, c5, c6, c7⟩

/-- The last component decides between plannings that serve the same trips. -/
theorem planningValue_lt {k : Objective} {c c' : Core} {rs l : List Nat} (w : SameWork c rs c' l)
    (h : lastComponent E k (rs.map (planOf E c)) < lastComponent E k (l.map (planOf E c'))) :
    planningValue E k (rs.map (planOf E c)) < planningValue E k (l.map (planOf E c')) := by
  have irr : ¬ ([] : List ℚ) < [] := lt_irrefl _
  have len : ∀ (c : Core) (l : List Nat), (l.map fun q => (((itinerary c q).flatMap Visit.picks).length : ℚ)).sum =
      ((l.flatMap (tripsOf c)).length : ℚ) := by
    intro c l
    induction l with
    | nil => rfl
    | cons a l ih =>
      rw [List.map_cons, List.sum_cons, ih, List.flatMap_cons, List.length_append]
      push_cast
      rfl
  cases k with
  | dialARide =>
    have e : ∀ (c : Core) (l : List Nat), planningValue E .dialARide (l.map (planOf E c)) =
        [(l.map fun q => (((itinerary c q).flatMap Visit.picks).length : ℚ)).sum, lastComponent E .dialARide (l.map (planOf E c))] := by
      intro c l
      unfold lastComponent planningValue columnSums
      simp only [List.map_map]
      rfl
    rw [e, e, len, len, w.trips.length_eq, List.cons_lt_cons_iff, List.cons_lt_cons_iff]
    exact .inr ⟨rfl, .inl h⟩
  | taxiSharing =>
    have e : ∀ l, planningValue E .taxiSharing l = [lastComponent E .taxiSharing l] := fun l => rfl
    rw [e, e, List.cons_lt_cons_iff]
    exact .inl h
  | hashCode =>
    have e : ∀ l, planningValue E .hashCode l = [lastComponent E .hashCode l] := fun l => rfl
    rw [e, e, List.cons_lt_cons_iff]
    exact .inl h

/-! ## C40 -/

/-- C40 as stated: whenever reallocation returns, vehicles and trips are those of the original routes. -/
def ReallocKeepsWork (E : Env) (k : Objective) : Prop :=
  ∀ (h h' : Heap) (rs l : List Nat) (order : List Nat → List Nat) (draw : Nat → Nat → Option (List (Nat × Nat))),
    OnePerVehicle E h rs → (∀ l, (order l).Perm l) → GoodDraws draw →
    improveWith E order (reallocation E k draw) rs h = (.ok l, h') → SameWork h.core rs h'.core l

/-- **C40, the part that holds.** For every planning of sound routes with at most one trip per stop, objective, set order
and samples of index pairs, reallocation succeeds and leaves the given routes alone. The result has one sound route per
vehicle, with at most one trip per stop, and serves the same trips, each once. Either every vehicle still has its stops,
or exactly one trip was moved from one route to another, the last component of the objective strictly improved and so
did the objective as a whole. Missing: routes with several trips at a stop (`C40_trip_lost`). -/
theorem C40_reallocation_partial {k : Objective} (hE : EnvOK E) {h : Heap} {rs : List Nat} (o : OnePerVehicle E h rs)
    (hs : ∀ r ∈ rs, SingleVisits (duties h.core r)) {order : List Nat → List Nat} (ho : ∀ l, (order l).Perm l)
    {draw : Nat → Nat → Option (List (Nat × Nat))} (hdr : GoodDraws draw) :
    ∃ l h', improveWith E order (reallocation E k draw) rs h = (.ok l, h') ∧ LeftAlone E h h' rs ∧
      OnePerVehicle E h' l ∧ SameWork h.core rs h'.core l ∧ (∀ q ∈ l, h.core.nRoute ≤ q ∧ SingleVisits (duties h'.core q)) ∧
      ((∀ r ∈ rs, ∃ q ∈ l, (h'.core.route q).vehicle = (h.core.route r).vehicle ∧ duties h'.core q = duties h.core r) ∨
        (∃ o d t i j, Reallocated E h.core rs h'.core l o d t i j) ∧
          lastComponent E k (rs.map (planOf E h.core)) < lastComponent E k (l.map (planOf E h'.core)) ∧
          planningValue E k (rs.map (planOf E h.core)) < planningValue E k (l.map (planOf E h'.core))) := by
  obtain ⟨l, h', e, t⟩ := improve_reallocation (k := k) hE (md := .any) (fun h => nomatch h) o.inv (fun r hr => hr) o.vehicles o.trips hs ho hdr
  refine ⟨l, h', e draw fun _ _ _ => rfl, ?_, ⟨fun q hq => t.inv.sound (.inr hq), t.work.vehicles.nodup_iff.2 o.vehicles, t.work.trips.nodup_iff.2 o.trips⟩,
    t.work, fun q hq => ⟨t.fresh q hq, t.single q hq⟩, ?_⟩
  · intro r hr
    exact ⟨t.inv.sound (.inl hr), by rw [t.alone.route r hr], t.alone.itinerary hr⟩
  · rcases t.outcome with ⟨h1, h2⟩ | ⟨h1, h2⟩
    · exact .inl fun r hr => ⟨r + h.core.nRoute, h1.mem_iff.2 (List.mem_map.2 ⟨r, hr, rfl⟩), h2 r hr⟩
    · exact .inr ⟨h2, h1, planningValue_lt t.work h1⟩

/-- In states reached by the insertion strategies every stop serves at most one trip. -/
theorem Reach.single (hE : EnvOK E) {h : Heap} (hr : Reach E h) : ∀ q < h.core.nRoute, SingleVisits (duties h.core q) := by
  induction hr with
  | empty => intro q hq; simp [Heap.empty] at hq
  | newRoute hr e ih =>
    rename_i h h' v r
    obtain ⟨_, e2, _, b, n2, _, d2⟩ := newRoute_inv v (hr.inv (md := .any) hE (fun h => nomatch h))
    rw [e2] at e
    cases e
    intro q hq
    by_cases hqr : q = h.core.nRoute
    · rw [hqr, d2]
      unfold SingleVisits
      simp
    · have hq' : q < h.core.nRoute := by omega
      have hk := (b.keeps (R := Live h) (hr.inv (md := .any) hE (fun h => nomatch h)).ok.wf).core
      unfold duties at ih ⊢
      rw [hk.itinerary hq']
      exact ih q hq'
  | compute hr hrl hij hj hts e ih =>
    rename_i h h' f r i j ts rs
    obtain ⟨cand, h2, e2, ba⟩ := compute_run hE (md := .any) (fun h => nomatch h) f (hr.inv (md := .any) hE (fun h => nomatch h)) hrl ts hij hj hts
    rw [e2] at e
    have := congrArg Prod.snd e
    simp only at this
    subst this
    intro q hq
    by_cases hqr : q < h.core.nRoute
    · rw [ba.same.duties hqr]; exact ih q hqr
    · have hm : q ∈ cand.map Prod.fst := by
        rw [ba.ids, List.mem_range'_1]
        have := ba.nRoute
        omega
      obtain ⟨x, hx, rfl⟩ := List.mem_map.1 hm
      have hd : duties h2.core x.1 ∈ (ts.map fun t => (t, i, j)).map fun x => withTrip E x.1 x.2.1 x.2.2 (duties h.core r) := by
        rw [← ba.duties]; exact List.mem_map.2 ⟨x, hx, rfl⟩
      rw [List.map_map] at hd
      obtain ⟨t, _, hd⟩ := List.mem_map.1 hd
      rw [← hd]
      exact withTrip_single (ih r hrl) (by unfold duties itinerary; simpa using hj)
  | feasible hr hrl e ih =>
    rename_i h h' r b
    have inv := hr.inv (md := .any) hE (fun h => nomatch h)
    obtain ⟨h2, e2, g, _⟩ := routeFeasible_memo hE (inv.ok.wf r hrl) rfl (inv.ok.agree r hrl)
    rw [e2] at e
    have := congrArg Prod.snd e
    simp only at this
    subst this
    rw [g.core]
    exact ih

/-- Samples that end are as the theorems ask. -/
theorem sampleDraw_good {rnd : Nat → Nat → Nat → Nat → Nat} (hr : ∀ c, RandInt (rnd c)) {fuel : Nat}
    (hend : ∀ c n, 2 ≤ n → (sampleDraw rnd fuel c n).isSome) : GoodDraws (sampleDraw rnd fuel) := by
  intro c n hn
  obtain ⟨ps, hps⟩ := Option.isSome_iff_exists.1 (hend c n hn)
  refine ⟨ps, hps, fun x hx => ?_⟩
  exact ((C25_sample_index_pairs n 128 fuel (rnd c) (hr c) hn).1 ps hps).2.1 x hx

/-- **C40 in states reached by the insertion strategies**, with the random numbers as the code draws them: the claim
holds as stated. -/
theorem C40_reallocation_reached {k : Objective} (hE : EnvOK E) {h : Heap} (hreach : Reach E h) {rs : List Nat}
    (hrs : ∀ r ∈ rs, r < h.core.nRoute) (hv : (rs.map fun r => (h.core.route r).vehicle).Nodup)
    (ht : (rs.flatMap (tripsOf h.core)).Nodup) {order : List Nat → List Nat} (ho : ∀ l, (order l).Perm l)
    {rnd : Nat → Nat → Nat → Nat → Nat} (hr : ∀ c, RandInt (rnd c)) {fuel : Nat}
    (hend : ∀ c n, 2 ≤ n → (sampleDraw rnd fuel c n).isSome) :
    ∃ l h', improveWith E order (reallocation E k (sampleDraw rnd fuel)) rs h = (.ok l, h') ∧ LeftAlone E h h' rs ∧
      OnePerVehicle E h' l ∧ SameWork h.core rs h'.core l ∧
      ((∀ r ∈ rs, ∃ q ∈ l, (h'.core.route q).vehicle = (h.core.route r).vehicle ∧ duties h'.core q = duties h.core r) ∨
        (∃ o d t i j, Reallocated E h.core rs h'.core l o d t i j) ∧
          lastComponent E k (rs.map (planOf E h.core)) < lastComponent E k (l.map (planOf E h'.core)) ∧
          planningValue E k (rs.map (planOf E h.core)) < planningValue E k (l.map (planOf E h'.core))) := by
  have inv := hreach.inv (md := .any) hE (fun h => nomatch h)
  obtain ⟨l, h', e, h1, h2, h3, _, h4⟩ := C40_reallocation_partial (k := k) hE ⟨fun r hr => inv.sound (hrs r hr), hv, ht⟩
    (fun r hr => hreach.single hE r (hrs r hr)) ho (sampleDraw_good hr hend)
  exact ⟨l, h', e, h1, h2, h3, h4⟩

/-! ### Two trips at one stop -/

/-- Both trips go from 9 to 10; vehicle 0 starts at 0 and vehicle 1 at 8. -/
def swapEnv : Env where
  metric := manhattan
  trip := fun _ => { origin := { position := [9] }, destination := { position := [10] } }
  vehicle := fun v => { origin := { position := [if v = 0 then 0 else 8] }, capacity := 10 }

theorem swapEnv_ok : EnvOK swapEnv where
  metric := manhattan_nonneg
  originDuration _ := le_refl _
  destinationDuration _ := le_refl _
  capacity _ := by show (0 : ℚ) ≤ 1; norm_num

def swap0 : Heap := (newRoute swapEnv 0 .empty).2
/-- Route 1 serves trip 0. -/
def swap1 : Heap := (compute swapEnv true 0 [0] 0 1 swap0).2
/-- Route 2 is the empty route of vehicle 1. -/
def swap2 : Heap := (newRoute swapEnv 1 swap1).2
/-- Route 1 also serves trip 1, at the stops of trip 0. -/
def shared2 : Heap :=
  (flushRoute 1 (newPlannedTrip swapEnv 0 1 (swap2.core.route 1).stops[1]? (swap2.core.route 1).stops[2]? swap2).2).2

theorem shared_one : OnePerVehicle swapEnv shared2 [1, 2] where
  sound r hr := by
    simp at hr
    rcases hr with rfl | rfl
    · exact ⟨wfB_sound (by decide +kernel), agreeB_sound (by decide +kernel)⟩
    · exact ⟨wfB_sound (by decide +kernel), agreeB_sound (by decide +kernel)⟩
  vehicles := by decide +kernel
  trips := by decide +kernel

/-- All index pairs, as `sample_index_pairs` yields them for up to sixteen stops. -/
def allPairs : Nat → Nat → Option (List (Nat × Nat)) := fun _ n => some (combinations2 n)

theorem allPairs_good : GoodDraws allPairs := fun _ n _ => ⟨combinations2 n, rfl, fun x hx => (combinations2_mem n x).1 hx⟩

def shared3 : Heap := (improveWith swapEnv id (reallocation swapEnv .dialARide allPairs) [1, 2] shared2).2

theorem shared_run : improveWith swapEnv id (reallocation swapEnv .dialARide allPairs) [1, 2] shared2 = (.ok [6, 7], shared3) :=
  eq_of_fst (by decide +kernel)

/-- C40 is false: moving trip 1 to the other vehicle drops the stops it shares with trip 0, which nobody serves any
more. -/
theorem C40_trip_lost : ¬ ReallocKeepsWork swapEnv .dialARide := by
  intro hp
  have := (hp shared2 shared3 [1, 2] [6, 7] id allPairs shared_one (fun l => List.Perm.refl l) allPairs_good shared_run).trips.length_eq
  revert this
  decide +kernel

example : [1, 2].flatMap (tripsOf shared2.core) = [1, 0] ∧ [6, 7].flatMap (tripsOf shared3.core) = [1] := by decide +kernel

/-! ### One trip per stop -/

theorem swap_reach : Reach swapEnv swap2 := by
  have r0 : Reach swapEnv swap0 := .newRoute (v := 0) (r := 0) .empty (eq_of_fst (by decide +kernel))
  have r1 : Reach swapEnv swap1 := .compute (rs := [1]) r0 (by decide +kernel) (by decide) (by decide +kernel) (by decide +kernel)
    (eq_of_fst (by decide +kernel))
  exact .newRoute (v := 1) (r := 2) r1 (eq_of_fst (by decide +kernel))

theorem swap_one : OnePerVehicle swapEnv swap2 [1, 2] where
  sound r hr := (swap_reach.inv (md := .any) swapEnv_ok (fun h => nomatch h)).sound (by
    simp at hr
    rcases hr with rfl | rfl <;> (show _ < swap2.core.nRoute; decide +kernel))
  vehicles := by decide +kernel
  trips := by decide +kernel

def swap3 : Heap := (improveWith swapEnv id (reallocation swapEnv .dialARide allPairs) [1, 2] swap2).2

/-- Reallocation moves the trip to the vehicle nearby. -/
theorem swap_run : improveWith swapEnv id (reallocation swapEnv .dialARide allPairs) [1, 2] swap2 = (.ok [6, 7], swap3) :=
  eq_of_fst (by decide +kernel)

example : (∀ r ∈ [1, 2], SingleVisits (duties swap2.core r)) ∧ tripsOf swap2.core 1 = [0] ∧ tripsOf swap2.core 2 = [] ∧
    (swap3.core.route 6).vehicle = 0 ∧ tripsOf swap3.core 6 = [] ∧ (swap3.core.route 7).vehicle = 1 ∧ tripsOf swap3.core 7 = [0] ∧
    planningValue swapEnv .dialARide ([1, 2].map (planOf swapEnv swap2.core)) <
      planningValue swapEnv .dialARide ([6, 7].map (planOf swapEnv swap3.core)) := by
  refine ⟨fun r hr => swap_reach.single swapEnv_ok r ?_, ?_⟩
  · simp at hr
    rcases hr with rfl | rfl <;> decide +kernel
  · decide +kernel

/-! ## C75 -/

/-- The constraints without durations, closing times as soon as possible, as verdicts. -/
theorem verdict_of_loose {c : Core} {r : Nat} (hw : WellFormed c r)
    (hf : LooselyFeasible E (E.vehicle (c.route r).vehicle) (itinerary c r)) : RouteVerdict E .sound c r true := by
  have hveh : ∀ s ∈ (c.route r).stops, (c.stop s).vehicle = (c.route r).vehicle := hw.vehicle
  obtain ⟨f, l, hf', hl⟩ := hw.ends
  obtain ⟨t1, t2⟩ := hw.timetable_head (E := E) hf'
  obtain ⟨t3, t4⟩ := hw.timetable_last (E := E) hl
  have t1' : (vehicleTimetable E (E.vehicle (c.route r).vehicle) (itinerary c r)).head? = some (tmAt E c f) := t1
  have t3' : (vehicleTimetable E (E.vehicle (c.route r).vehicle) (itinerary c r)).getLast? = some (tmAt E c l) := t3
  have closes : ∀ i s : Nat, (c.route r).stops[i]? = some s → ((stopLatest E c s).addQ errorBound).leQ (tmAt E c.asap s).start = true := by
    intro i s hi
    obtain ⟨a1, _, a3⟩ := hw.asap.timetable_idx (E := E) hi
    unfold routeTimetable at a1
    rw [asap_itinerary] at a1
    obtain ⟨_, _, a3⟩ := hw.timetable_idx (E := E) hi
    have hs := List.mem_of_getElem? hi
    refine (leQ_stopLatest s _).2 ⟨fun p hp => ?_, fun p hp => ?_⟩
    · obtain ⟨u, d, pre, mid, suf, e, hu, hd, hpu, hpd⟩ := hw.stops_of (List.mem_flatMap.2 ⟨s, hs, hp⟩)
      have hds : d ∈ (c.route r).stops := by rw [e]; simp
      obtain ⟨j, hj⟩ := List.getElem?_of_mem hds
      obtain ⟨b1, _⟩ := hw.asap.timetable_idx (E := E) hj
      unfold routeTimetable at b1
      rw [asap_itinerary] at b1
      obtain ⟨_, _, b3⟩ := hw.timetable_idx (E := E) hj
      exact (hf.closing i j _ _ _ _ (c.pt p).trip a3 b3 a1 b1 (List.mem_map_of_mem hp) (List.mem_map_of_mem hpd)).1
    · obtain ⟨u, d, pre, mid, suf, e, hu, hd, hpu, hpd⟩ :=
        hw.stops_of (hw.deliveries_sub_pickups p (List.mem_flatMap.2 ⟨s, hs, hp⟩))
      have hus : u ∈ (c.route r).stops := by rw [e]; simp
      obtain ⟨j, hj⟩ := List.getElem?_of_mem hus
      obtain ⟨b1, _⟩ := hw.asap.timetable_idx (E := E) hj
      unfold routeTimetable at b1
      rw [asap_itinerary] at b1
      obtain ⟨_, _, b3⟩ := hw.timetable_idx (E := E) hj
      exact (hf.closing j i _ _ _ _ (c.pt p).trip b3 a3 b1 a1 (List.mem_map_of_mem hpu) (List.mem_map_of_mem hp)).2
  refine ⟨fun _ _ => ?_, fun _ p hp => ⟨fun _ _ => ?_, fun h => nomatch h⟩⟩
  · unfold endsV
    rw [hf', hl]
    simp only [Bool.and_eq_true, decide_eq_true_eq]
    have h1 := hf.startPos
    have h3 := hf.endPos
    rw [t2] at h1
    rw [t4] at h3
    simp [visitOf] at h1 h3
    exact ⟨⟨⟨h1, hf.startTime _ (by rw [t1']; rfl)⟩, h3⟩, hf.endTime _ (by rw [t3']; rfl)⟩
  · obtain ⟨u, d, pre, mid, suf, e, hu, hd, hpu, hpd⟩ := hw.stops_of hp
    have hus : u ∈ (c.route r).stops := by rw [e]; simp
    have hds : d ∈ (c.route r).stops := by rw [e]; simp
    obtain ⟨i, hi⟩ := List.getElem?_of_mem hus
    obtain ⟨j, hj⟩ := List.getElem?_of_mem hds
    obtain ⟨a1, a2, a3⟩ := hw.timetable_idx (E := E) hi
    obtain ⟨b1, b2, b3⟩ := hw.timetable_idx (E := E) hj
    have ok := hf.trips i j _ _ _ _ _ _ (c.pt p).trip a3 b3 a1 b1 a2 b2 (List.mem_map_of_mem hpu) (List.mem_map_of_mem hpd)
    refine ⟨u, d, hu, hd, ⟨?_, ?_⟩, ⟨?_, ?_⟩, ok.ride⟩
    · rw [hveh u hus]; exact ok.pickLoad
    · exact closes i u hi
    · rw [hveh d hds]; exact ok.dropLoad
    · exact closes j d hj

/-- Without a maximum duration the tests on the ends are all tests on the vehicle. -/
theorem vehV_of_endsV {c : Core} {r : Nat} (hinf : (E.vehicle (c.route r).vehicle).timeout = .inf) (h : endsV E c r = true) :
    vehV E c r = true := by
  unfold endsV at h
  unfold vehV
  cases h1 : (c.route r).stops.head? with
  | none => rw [h1] at h; simp at h
  | some f =>
    cases h2 : (c.route r).stops.getLast? with
    | none => rw [h1, h2] at h; simp at h
    | some l =>
      rw [h1, h2] at h
      simp only at h ⊢
      rw [h, hinf]
      rfl

/-- **C75.** In states reached by the insertion strategies reallocation keeps plannings feasible: if the routes it starts
from meet the constraints of `LooselyFeasible` (all but route durations, closing times as soon as possible), so do all routes of its result. If moreover no
trip has a maximum ride time and no vehicle a maximum duration, and the routes it starts from meet all constraints, then
so do those of the result. -/
theorem C75_reallocation_feasible {k : Objective} (hE : EnvOK E) {h : Heap} (hreach : Reach E h) {rs : List Nat}
    (hrs : ∀ r ∈ rs, r < h.core.nRoute) (hv : (rs.map fun r => (h.core.route r).vehicle).Nodup)
    (ht : (rs.flatMap (tripsOf h.core)).Nodup) {order : List Nat → List Nat} (ho : ∀ l, (order l).Perm l)
    {draw : Nat → Nat → Option (List (Nat × Nat))} (hdr : GoodDraws draw) :
    ∃ l h', improveWith E order (reallocation E k draw) rs h = (.ok l, h') ∧
      ((∀ r ∈ rs, LooselyFeasible E (planOf E h.core r).1 (planOf E h.core r).2) →
        ∀ q ∈ l, LooselyFeasible E (planOf E h'.core q).1 (planOf E h'.core q).2) ∧
      ((∀ t, (E.trip t).timeout = .inf) → (∀ v, (E.vehicle v).timeout = .inf) →
        (∀ r ∈ rs, FeasibleItinerary E (planOf E h.core r).1 (planOf E h.core r).2) →
        ∀ q ∈ l, FeasibleItinerary E (planOf E h'.core q).1 (planOf E h'.core q).2) := by
  have hs : ∀ r ∈ rs, SingleVisits (duties h.core r) := fun r hr => hreach.single hE r (hrs r hr)
  have main : ∀ md, (md = .exact → ∀ t, (E.trip t).timeout = .inf) →
      ∃ l h', improveWith E order (reallocation E k draw) rs h = (.ok l, h') ∧ ReallocDone E k md (· ∈ rs) h rs l h' := fun md hx => by
    obtain ⟨l, h', e, t⟩ := improve_reallocation (k := k) hE hx ((hreach.inv hE hx).subset fun q hq => hrs q hq) (fun r hr => hr) hv ht hs ho hdr
    exact ⟨l, h', e draw fun _ _ _ => rfl, t⟩
  obtain ⟨l, h', e, t⟩ := main .sound (fun h => nomatch h)
  have hwf : ∀ r ∈ rs, WellFormed h.core r := fun r hr => (hreach.inv (md := .any) hE (fun h => nomatch h)).ok.wf r (hrs r hr)
  have hdw : ∀ r ∈ rs, WellFormed h.double.core (r + h.core.nRoute) := fun r hr => double_wf (hwf r hr)
  have hplan : ∀ r ∈ rs, (h.double.core.route (r + h.core.nRoute)).vehicle = (h.core.route r).vehicle ∧
      itinerary h.double.core (r + h.core.nRoute) = itinerary h.core r := fun r hr =>
    ⟨by rw [double_route (hwf r hr)]; rfl, double_itinerary (hwf r hr)⟩
  refine ⟨l, h', e, ?_, ?_⟩
  · intro hf q hq
    have wq := t.inv.ok.wf q (.inr hq)
    rcases t.feasible q hq with ⟨r, hr, rfl, a⟩ | h1 | h1
    · refine looselyFeasible_of (md := .sound) wq (fun h => nomatch h) ?_
      refine (verdict_of_loose (hdw r hr) ?_).transfer a rfl (hdw r hr)
      rw [(hplan r hr).1, (hplan r hr).2]
      exact hf r hr
    · exact looselyFeasible_of (md := .exact) wq (fun h => nomatch h) (by
        have := (freshV_iff wq).2 h1
        unfold freshV at this
        rw [Bool.and_eq_true, List.all_eq_true] at this
        refine ⟨fun _ _ => endsV_of_vehV this.1, fun _ p hp => ?_⟩
        have h2 := PtVerdict.self (E := E) h'.core p
        rwa [this.2 p hp] at h2)
    · exact looselyFeasible_of (md := .sound) wq (fun h => nomatch h) h1
  · intro hinf hvinf hf
    obtain ⟨l2, h2, e2, t⟩ := main .exact (fun _ => hinf)
    rw [e] at e2
    cases e2
    intro q hq
    have wq := t.inv.ok.wf q (.inr hq)
    rcases t.feasible q hq with ⟨r, hr, rfl, a⟩ | h1 | h1
    · have hf1 : FeasibleItinerary E (E.vehicle (h.double.core.route (r + h.core.nRoute)).vehicle)
          (itinerary h.double.core (r + h.core.nRoute)) := by
        rw [(hplan r hr).1, (hplan r hr).2]
        exact hf r hr
      have h3 := (freshV_iff (hdw r hr)).2 hf1
      unfold freshV at h3
      rw [Bool.and_eq_true, List.all_eq_true] at h3
      refine (freshV_iff wq).1 ?_
      unfold freshV
      rw [Bool.and_eq_true, List.all_eq_true]
      refine ⟨vehV_of_endsV (hvinf _) (by rw [a.ends rfl (hdw r hr)]; exact endsV_of_vehV h3.1), fun p hp => ?_⟩
      rw [a.planned rfl] at hp
      rw [a.tripV rfl (hdw r hr) hp]
      exact h3.2 p hp
    · exact h1
    · exact feasible_of wq (vehV_of_endsV (hvinf _) (h1.ends (fun h => nomatch h) rfl)) (h1.trips rfl)

/-- The routes reallocation starts from and the ones it yields are feasible. -/
example : (∀ r ∈ [1, 2], FeasibleItinerary swapEnv (planOf swapEnv swap2.core r).1 (planOf swapEnv swap2.core r).2) ∧
    ∀ q ∈ [6, 7], FeasibleItinerary swapEnv (planOf swapEnv swap3.core q).1 (planOf swapEnv swap3.core q).2 := by
  have hf : ∀ r ∈ [1, 2], FeasibleItinerary swapEnv (planOf swapEnv swap2.core r).1 (planOf swapEnv swap2.core r).2 := by
    intro r hr
    refine (freshV_iff (swap_one.sound r hr).1).1 ?_
    simp at hr
    rcases hr with rfl | rfl <;> decide +kernel
  refine ⟨hf, ?_⟩
  obtain ⟨l, h', e, _, h2⟩ := C75_reallocation_feasible (k := .dialARide) swapEnv_ok swap_reach (rs := [1, 2]) (by decide +kernel)
    swap_one.vehicles swap_one.trips (order := id) (fun l => List.Perm.refl l) allPairs_good
  rw [swap_run] at e
  cases e
  exact h2 (fun _ => rfl) (fun _ => rfl) hf

end Jinete
