import Verif.Proofs.LocalStep
import Verif.Props.Insertion

/-!
# C41, C42, C72: two-opt
-/

set_option autoImplicit false

namespace Jinete

variable {E : Env}

/-- Sound routes of which no two share their first stop. -/
theorem inv_any {h : Heap} {R : Nat → Prop} (hs : ∀ r, R r → Sound E h r)
    (hv : ∀ q q', R q → R q' → (h.core.route q).vehicle = (h.core.route q').vehicle → q = q') : Inv E .any R h := by
  have hp : ∀ p b, PtVerdict E .any h.core p b := fun p b => ⟨fun h => (h rfl).elim, fun h => nomatch h⟩
  refine ⟨⟨fun q hq => (hs q hq).1, fun q hq => (cachesAgree_iff (hs q hq).1.toChained).1 (hs q hq).2, ?_⟩,
    fun q _ b _ => ⟨fun h => (h rfl).elim, fun _ p _ => hp p true⟩,
    fun q _ s _ b _ => ⟨fun h => (h rfl).elim, fun h => nomatch h⟩, fun q _ p _ b _ => hp p b⟩
  intro q hq q' hq' s h1 h2
  have e1 := (hs q hq).1.vehicle s (List.mem_of_mem_head? h1)
  have e2 := (hs q' hq').1.vehicle s (List.mem_of_mem_head? h2)
  rw [hv q q' hq hq' (e1.symm.trans e2)]

theorem OnePerVehicle.inv {h : Heap} {rs : List Nat} (o : OnePerVehicle E h rs) : Inv E .any (· ∈ rs) h :=
  inv_any o.sound fun _ _ h1 h2 e => List.inj_on_of_nodup_map o.vehicles h1 h2 e

theorem WellFormed.picksFirst {c : Core} {r : Nat} (hw : WellFormed c r) : PicksFirst (itinerary c r) := by
  intro a v b e t ht
  exact List.mem_flatMap.1 (hw.itinOK.dropAfter a v b e t ht)

/-! ## C42 -/

theorem twoOptBlocked_iff {c : Core} {r i j : Nat} (hw : WellFormed c r) :
    twoOptBlocked c (((c.route r).stops.take (j + 1)).drop i) = true ↔ TripInside i j (itinerary c r) := by
  have hseg : ((itinerary c r).take (j + 1)).drop i = (((c.route r).stops.take (j + 1)).drop i).map (visitOf c) := by
    unfold itinerary
    rw [List.map_drop, List.map_take]
  constructor
  · intro h
    unfold twoOptBlocked at h
    obtain ⟨a, ha, h1⟩ := List.any_eq_true.1 h
    obtain ⟨p, hp, h2⟩ := List.any_eq_true.1 h1
    rw [List.contains_eq_mem, decide_eq_true_eq] at h2
    obtain ⟨b, hb, h3⟩ := List.mem_flatMap.1 h2
    refine ⟨visitOf c b, ?_, visitOf c a, ?_, (c.pt p).trip, List.mem_map.2 ⟨p, h3, rfl⟩, List.mem_map.2 ⟨p, hp, rfl⟩⟩
    · rw [hseg]; exact List.mem_map.2 ⟨b, hb, rfl⟩
    · rw [hseg]; exact List.mem_map.2 ⟨a, ha, rfl⟩
  · rintro ⟨v, hv, w, hw', t, h1, h2⟩
    by_contra hn
    rw [hseg] at hv hw'
    obtain ⟨b, hb, rfl⟩ := List.mem_map.1 hv
    obtain ⟨a, ha, rfl⟩ := List.mem_map.1 hw'
    obtain ⟨p, hp, e1⟩ := List.mem_map.1 h1
    obtain ⟨p', hp', e2⟩ := List.mem_map.1 h2
    have sub : ∀ x ∈ ((c.route r).stops.take (j + 1)).drop i, x ∈ (c.route r).stops := fun x hx =>
      List.mem_of_mem_take (List.mem_of_mem_drop hx)
    have : p = p' := hw.trip_inj (List.mem_flatMap.2 ⟨b, sub b hb, hp⟩)
      (hw.deliveries_sub_pickups p' (List.mem_flatMap.2 ⟨a, sub a ha, hp'⟩)) (by rw [e1, e2])
    subst this
    exact not_torn hw rfl (Bool.eq_false_iff.2 hn) hb ha hp hp'

theorem reversed_torn {c : Core} {r i j : Nat} (hw : WellFormed c r) (hj : j + 2 ≤ (c.route r).stops.length)
    (hij : i ≤ j) (ht : TripInside i j (itinerary c r)) : ¬ PicksFirst (reversed i j (itinerary c r)) := by
  obtain ⟨v, hv, w, hw', t, h1, h2⟩ := ht
  have ok := hw.itinOK
  have hlen : (itinerary c r).length = (c.route r).stops.length := by unfold itinerary; rw [List.length_map]
  generalize itinerary c r = l at *
  intro hp
  obtain ⟨X, Y, e⟩ := List.append_of_mem hw'
  have hd : l.dropLast.take (j + 1) = l.take (j + 1) := by
    rw [List.dropLast_eq_take, List.take_take, Nat.min_eq_left (by omega)]
  have hl : l = l.take i ++ (X ++ w :: Y) ++ l.drop (j + 1) := by
    rw [← e]
    have : l.take i = (l.take (j + 1)).take i := by rw [List.take_take, Nat.min_eq_left (by omega)]
    rw [this, List.take_append_drop, List.take_append_drop]
  have hin : ∃ u ∈ X, t ∈ u.picks := by
    have := ok.dropAfter (l.take i ++ X) w (Y ++ l.drop (j + 1)) (by rw [List.append_assoc] at hl; simpa using hl) t h2
    rw [List.flatMap_append, List.mem_append] at this
    rcases this with h0 | h0
    · exfalso
      have hn := ok.picks
      rw [hl, List.append_assoc, List.flatMap_append, List.nodup_append] at hn
      refine hn.2.2 t h0 t (List.mem_flatMap.2 ⟨v, ?_, h1⟩) rfl
      rw [e] at hv
      exact List.mem_append_left _ hv
    · exact List.mem_flatMap.1 h0
  obtain ⟨x, hx, hx2⟩ := hin
  unfold reversed at hp
  rw [hd, e] at hp
  obtain ⟨u, hu, hu2⟩ := hp (l.take i ++ Y.reverse) w (X.reverse ++ ((l.dropLast.drop i).drop (j + 1 - i) ++ l.drop (l.length - 1)))
    (by simp) t h2
  have hn := ok.picks
  rw [hl] at hn
  simp only [List.flatMap_append, List.flatMap_cons, List.append_assoc] at hn
  rw [List.nodup_append] at hn
  have htx : t ∈ X.flatMap Visit.picks := List.mem_flatMap.2 ⟨x, hx, hx2⟩
  rcases List.mem_append.1 hu with hu | hu
  · exact hn.2.2 t (List.mem_flatMap.2 ⟨u, hu, hu2⟩) t (by simp only [List.mem_append]; exact .inl htx) rfl
  · have hn2 := hn.2.1
    rw [List.nodup_append] at hn2
    refine hn2.2.2 t htx t ?_ rfl
    simp only [List.mem_append]
    exact .inr (.inl (List.mem_flatMap.2 ⟨u, List.mem_reverse.1 hu, hu2⟩))

theorem leftAlone_of_keeps {h h' : Heap} (k : ∀ r, Sound E h r → Keeps (· = r) h h') {rs : List Nat} (hs : ∀ r ∈ rs, Sound E h r) :
    LeftAlone E h h' rs := by
  intro r hr
  have kr := k r (hs r hr)
  refine ⟨((inv_any (R := (· = r)) (by rintro _ rfl; exact hs _ hr) (by rintro _ _ rfl rfl _; rfl)).keeps kr).sound rfl, ?_,
    kr.core.itinerary rfl⟩
  rw [kr.core.route r rfl]

/-- **C42.** For every sound route and every segment: two-opt skips the segment exactly when some trip is picked up and
dropped inside. Otherwise the candidate is a new sound route of the same vehicle whose visits are the original ones with
the segment reversed; every trip is picked up before it is dropped; existing routes are left alone. A segment that does
not reach the final stop is skipped only if reversing it would drop a trip before its pickup. -/
theorem C42_two_opt_candidates {h : Heap} {r i j : Nat} (hs : Sound E h r) (hi : 1 ≤ i) (hij : i < j)
    (hn : i + 2 ≤ (h.core.route r).stops.length) :
    (twoOptBlocked h.core (((h.core.route r).stops.take (j + 1)).drop i) = true ↔ TripInside i j (itinerary h.core r)) ∧
    (¬ TripInside i j (itinerary h.core r) → ∃ r' h', twoOptCandidate E r i j h = (.ok r', h') ∧ r' = h.core.nRoute ∧
      Sound E h' r' ∧ (h'.core.route r').vehicle = (h.core.route r).vehicle ∧
      itinerary h'.core r' = reversed i j (itinerary h.core r) ∧ (itinerary h'.core r').Perm (itinerary h.core r) ∧
      PicksFirst (itinerary h'.core r') ∧ ∀ rs, (∀ q ∈ rs, Sound E h q) → LeftAlone E h h' rs) ∧
    (TripInside i j (itinerary h.core r) → j + 2 ≤ (h.core.route r).stops.length →
      ¬ PicksFirst (reversed i j (itinerary h.core r))) := by
  refine ⟨twoOptBlocked_iff hs.1, ?_, fun ht hj => reversed_torn hs.1 hj (by omega) ht⟩
  intro hb
  have inv : Inv E .any (· = r) h := inv_any (by rintro _ rfl; exact hs) (by rintro _ _ rfl rfl _; rfl)
  obtain ⟨r', h', e, v⟩ := twoOptCandidate_run inv rfl hi hn (Bool.eq_false_iff.2 fun h0 => hb ((twoOptBlocked_iff hs.1).1 h0))
  refine ⟨r', h', e, v.new, v.inv.sound Plus.right, v.vehicle, v.itinerary, ?_, (v.inv.ok.wf r' Plus.right).picksFirst, ?_⟩
  · rw [v.itinerary]
    exact reversed_perm j (by unfold itinerary; rw [List.length_map]; exact hn)
  · intro rs hrs
    exact leftAlone_of_keeps (fun q hq => v.below.keeps (by rintro _ rfl; exact hq.1)) hrs

/-! ## C41 -/

/-- Matching the new routes with the old ones by their vehicle. -/
theorem matched {l rs : List Nat} {f f' : Nat → Nat} {P : Nat → Nat → Prop} (hl : (l.map f').Nodup) (hr : (rs.map f).Nodup)
    (h1 : ∀ q ∈ l, ∃ r ∈ rs, f' q = f r ∧ P q r) (h2 : ∀ r ∈ rs, ∃ q ∈ l, f' q = f r) :
    ∃ g : Nat → Nat, (∀ q ∈ l, P q (g q) ∧ f' q = f (g q)) ∧ (l.map g).Perm rs := by
  classical
  choose g hg using fun q : {q // q ∈ l} => h1 q.1 q.2
  let g' : Nat → Nat := fun q => if hq : q ∈ l then g ⟨q, hq⟩ else 0
  have hg' : ∀ q ∈ l, g' q ∈ rs ∧ f' q = f (g' q) ∧ P q (g' q) := by
    intro q hq
    simp only [g', dif_pos hq]
    exact hg ⟨q, hq⟩
  refine ⟨g', fun q hq => ⟨(hg' q hq).2.2, (hg' q hq).2.1⟩, ?_⟩
  have e : (l.map g').map f = l.map f' := by
    rw [List.map_map]
    exact List.map_congr_left fun q hq => ((hg' q hq).2.1).symm
  refine (List.perm_ext_iff_of_nodup (List.Nodup.of_map f (by rw [e]; exact hl)) (List.Nodup.of_map f hr)).2 fun r => ?_
  constructor
  · intro h0
    obtain ⟨q, hq, rfl⟩ := List.mem_map.1 h0
    exact (hg' q hq).1
  · intro h0
    obtain ⟨q, hq, e2⟩ := h2 r h0
    refine List.mem_map.2 ⟨q, hq, ?_⟩
    exact List.inj_on_of_nodup_map hr (hg' q hq).1 h0 ((hg' q hq).2.1.symm.trans e2)

theorem planningValue_perm {k : Objective} {l l' : List (Vehicle × List Visit)} (h : l.Perm l') :
    planningValue E k l = planningValue E k l' := columnSums_perm (h.map _)

theorem sum_le_sum_of {α : Type} {l : List α} {f g : α → ℚ} (h : ∀ x ∈ l, f x ≤ g x) : (l.map f).sum ≤ (l.map g).sum :=
  List.sum_le_sum h

theorem pair_le_pair {a b c d : ℚ} : ([a, b] : List ℚ) ≤ [c, d] ↔ a < c ∨ a = c ∧ b ≤ d := by
  rw [← not_lt, List.cons_lt_cons_iff, List.cons_lt_cons_iff]
  have : ¬ ([] : List ℚ) < [] := lt_irrefl _
  constructor
  · intro h
    push Not at h
    rcases lt_or_eq_of_le h.1 with h1 | h1
    · exact .inl h1
    · exact .inr ⟨h1, (h.2 h1.symm).1⟩
  · rintro (h | ⟨h, h2⟩)
    · rintro (h3 | ⟨h3, _⟩)
      · exact lt_asymm h h3
      · exact absurd h3.symm (ne_of_lt h)
    · rintro (h3 | ⟨_, h3 | ⟨_, h3⟩⟩)
      · exact absurd h.symm (ne_of_lt h3)
      · exact absurd h3 (not_lt.2 h2)
      · exact this h3

theorem single_le_single {a b : ℚ} : ([a] : List ℚ) ≤ [b] ↔ a ≤ b := by
  rw [← not_lt, List.cons_lt_cons_iff, ← not_lt (a := b)]
  have : ¬ ([] : List ℚ) < [] := lt_irrefl _
  tauto

/-- Plannings are ordered like their routes. -/
theorem planningValue_mono {k : Objective} {l : List Nat} {x y : Nat → Vehicle × List Visit}
    (h : ∀ q ∈ l, routeValue E (x q).1 (x q).2 k ≤ routeValue E (y q).1 (y q).2 k) :
    planningValue E k (l.map x) ≤ planningValue E k (l.map y) := by
  unfold planningValue columnSums
  simp only [List.map_map]
  cases k with
  | dialARide =>
    have e : ∀ z : Nat → Vehicle × List Visit, ((List.range Objective.dialARide.dim).map fun i =>
        (l.map ((fun v => List.getD v i 0) ∘ (fun x => routeValue E x.1 x.2 .dialARide) ∘ z)).sum) =
        [(l.map fun q => (((z q).2.flatMap Visit.picks).length : ℚ)).sum,
          (l.map fun q => - tourLength E (z q).1.origin.position ((z q).2.map Visit.pos)).sum] := fun z => rfl
    rw [e, e]
    have h' : ∀ q ∈ l, (((x q).2.flatMap Visit.picks).length : ℚ) < (((y q).2.flatMap Visit.picks).length : ℚ) ∨
        (((x q).2.flatMap Visit.picks).length : ℚ) = (((y q).2.flatMap Visit.picks).length : ℚ) ∧
        - tourLength E (x q).1.origin.position ((x q).2.map Visit.pos) ≤ - tourLength E (y q).1.origin.position ((y q).2.map Visit.pos) :=
      fun q hq => pair_le_pair.1 (h q hq)
    rw [pair_le_pair]
    by_cases hall : ∀ q ∈ l, (((x q).2.flatMap Visit.picks).length : ℚ) = (((y q).2.flatMap Visit.picks).length : ℚ)
    · right
      refine ⟨congrArg List.sum (List.map_congr_left hall), sum_le_sum_of fun q hq => ?_⟩
      rcases h' q hq with h0 | h0
      · exact absurd (hall q hq) (ne_of_lt h0)
      · exact h0.2
    · left
      push Not at hall
      obtain ⟨q, hq, hne⟩ := hall
      refine List.sum_lt_sum _ _ (fun q hq => ?_) ⟨q, hq, ?_⟩
      · rcases h' q hq with h0 | h0
        · exact le_of_lt h0
        · exact le_of_eq h0.1
      · rcases h' q hq with h0 | h0
        · exact h0
        · exact absurd h0.1 hne
  | taxiSharing =>
    have e : ∀ z : Nat → Vehicle × List Visit, ((List.range Objective.taxiSharing.dim).map fun i =>
        (l.map ((fun v => List.getD v i 0) ∘ (fun x => routeValue E x.1 x.2 .taxiSharing) ∘ z)).sum) =
        [(l.map fun q => (((rides E (z q).1 (z q).2).filter fun x => decide ((E.trip x.trip).capacity ≠ 0)).map
          fun x => x.drop - x.pick).sum).sum] := fun z => rfl
    rw [e, e, single_le_single]
    exact sum_le_sum_of fun q hq => single_le_single.1 (h q hq)
  | hashCode =>
    have e : ∀ z : Nat → Vehicle × List Visit, ((List.range Objective.hashCode.dim).map fun i =>
        (l.map ((fun v => List.getD v i 0) ∘ (fun x => routeValue E x.1 x.2 .hashCode) ∘ z)).sum) =
        [(l.map fun q => (((rides E (z q).1 (z q).2).filter fun x => decide ((E.trip x.trip).capacity ≠ 0)).map
          (Ride.earned E)).sum).sum] := fun z => rfl
    rw [e, e, single_le_single]
    exact sum_le_sum_of fun q hq => single_le_single.1 (h q hq)

/-- C41 as stated: whenever two-opt returns, vehicles and trips are those of the original routes. -/
def TwoOptKeepsWork (E : Env) (k : Objective) : Prop :=
  ∀ (h h' : Heap) (rs l : List Nat) (order : List Nat → List Nat), OnePerVehicle E h rs → (∀ l, (order l).Perm l) →
    improveWith E order (twoOpt E k) rs h = (.ok l, h') → SameWork h.core rs h'.core l

/-- What two-opt makes of the copies, told about the originals. -/
structure TwoOptResult (E : Env) (k : Objective) (md : Mode) (h : Heap) (rs l : List Nat) (h' : Heap) : Prop where
  inv : Inv E md (fun q => q ∈ rs ∨ q ∈ l) h'
  alone : SameCore (· ∈ rs) h.core h'.core
  fresh : ∀ q ∈ l, h.core.nRoute ≤ q
  nodup : l.Nodup
  from_ : ∀ q ∈ l, ∃ r ∈ rs, (h'.core.route q).vehicle = (h.core.route r).vehicle ∧
    (itinerary h'.core q = itinerary h.core r ∨
      Reordered E k md h.core r (routeValue E (E.vehicle (h.core.route r).vehicle) (itinerary h.core r) k) h'.core q)
  each : ∀ r ∈ rs, ∃ q ∈ l, (h'.core.route q).vehicle = (h.core.route r).vehicle

theorem improve_twoOpt {k : Objective} {md : Mode} (hE : EnvOK E) {h : Heap} {rs : List Nat} (inv : Inv E md (· ∈ rs) h)
    (hv : (rs.map fun r => (h.core.route r).vehicle).Nodup) {order : List Nat → List Nat} (ho : ∀ l, (order l).Perm l) :
    ∃ l h', improveWith E order (twoOpt E k) rs h = (.ok l, h') ∧ TwoOptResult E k md h rs l h' := by
  have hcore : ∀ r ∈ rs, (h.double.core.route (r + h.core.nRoute)).vehicle = (h.core.route r).vehicle ∧
      itinerary h.double.core (r + h.core.nRoute) = itinerary h.core r := fun r hr =>
    ⟨by rw [double_route (inv.ok.wf r hr)]; rfl, double_itinerary (inv.ok.wf r hr)⟩
  have hkeep : SameCore (· ∈ rs) h.core h.double.core := ((double_below h).keeps inv.ok.wf).core
  obtain ⟨l, h', R2, e, i2, hl, q1, q2, q3, q4, q5, q6⟩ := improveWith_run (E := E) (md := md) hE inv ho
    (P := (· = twoOpt E k)) (rs := rs) (fun r hr => hr)
    (Q := fun R2 l c => SameCore (· ∈ rs) h.core c ∧ (∀ q ∈ rs, R2 q) ∧ (∀ q ∈ l, h.core.nRoute ≤ q) ∧ l.Nodup ∧
      (∀ q ∈ l, FromTwoOpt E k md h.double.core (rs.map (· + h.core.nRoute)) c q ∧
        (q ∈ rs.map (· + h.core.nRoute) → c.route q = h.double.core.route q ∧ itinerary c q = itinerary h.double.core q)) ∧
      ∀ r ∈ rs, ∃ q ∈ l, (c.route q).vehicle = (h.core.route r).vehicle) (by
      intro h1 e1 inv1
      have hp := ho (rs.map (· + h.core.nRoute))
      have hmem : ∀ {r}, r ∈ order (rs.map (· + h.core.nRoute)) ↔ r ∈ rs.map (· + h.core.nRoute) := fun {r} => hp.mem_iff
      have hcop : ∀ r ∈ order (rs.map (· + h.core.nRoute)), WithCopies (· ∈ rs) h.core.nRoute r := by
        intro r hr
        obtain ⟨q, hq, rfl⟩ := List.mem_map.1 (hmem.1 hr)
        exact .inr ⟨q, hq, rfl⟩
      obtain ⟨l, h2, e2, i2, s2, nd, hu, hfr, hf, hall⟩ := twoOpt_run (k := k) hE inv1 hcop (by
        unfold vehiclesOf
        refine (hp.map _).nodup_iff.2 ?_
        rw [e1, List.map_map, show rs.map ((fun r => (h.double.core.route r).vehicle) ∘ (· + h.core.nRoute)) =
          rs.map fun r => (h.core.route r).vehicle from List.map_congr_left fun r hr => (hcore r hr).1]
        exact hv)
      refine ⟨l, h2, _, fun _ hs => hs ▸ e2, i2, hu, ?_, fun q hq => .inl (.inl hq), ?_, nd, ?_, ?_⟩
      · rw [e1] at s2
        exact hkeep.trans (s2.subset fun q hq => .inl hq)
      · intro q hq
        rcases hfr q hq with h0 | h0
        · obtain ⟨r, hr, rfl⟩ := List.mem_map.1 (hmem.1 h0)
          omega
        · rw [e1] at h0
          have : h.double.core.nRoute = h.core.nRoute + h.core.nRoute := rfl
          omega
      · intro q hq
        rw [e1] at s2
        refine ⟨?_, fun h0 => ⟨s2.route q ?_, s2.itinerary ?_⟩⟩
        · cases hf q hq with
          | kept h3 => exact .kept (hmem.1 h3)
          | better h3 h4 => rw [e1] at h4; exact .better (hmem.1 h3) h4
        · exact hcop q (hmem.2 h0)
        · exact hcop q (hmem.2 h0)
      · intro r hr
        obtain ⟨q, hq, h0⟩ := hall (r + h.core.nRoute) (hmem.2 (List.mem_map.2 ⟨r, hr, rfl⟩))
        exact ⟨q, hq, by rw [h0, e1, (hcore r hr).1]⟩)
  refine ⟨l, h', e _ rfl, i2.subset ?_, q1, q3, q4, ?_, q6⟩
  · rintro q (hq | hq)
    · exact q2 q hq
    · exact hl q hq
  · intro q hq
    obtain ⟨hf, hk⟩ := q5 q hq
    cases hf with
    | kept h0 =>
      obtain ⟨a1, a2⟩ := hk h0
      obtain ⟨r, hr, rfl⟩ := List.mem_map.1 h0
      exact ⟨r, hr, by rw [a1, (hcore r hr).1], .inl (by rw [a2, (hcore r hr).2])⟩
    | better h0 h1 =>
      obtain ⟨r, hr, rfl⟩ := List.mem_map.1 h0
      obtain ⟨a1, a2, a3, a4, a5, a6⟩ := h1
      rw [(hcore r hr).1] at a1 a3 a6
      rw [(hcore r hr).2] at a2 a3 a6
      exact ⟨r, hr, a1, .inr ⟨a1, a2, a3, a4, a5, a6⟩⟩

/-- **C41, the part that holds.** For every planning of sound routes, objective and set order two-opt succeeds and
leaves the given routes alone. Every route of the result is sound and serves exactly the trips of the original route of
its vehicle, at a value at least as large; every vehicle keeps a route. If no vehicle got two routes, then the result has
one route per vehicle and the same trips, each once, and its value is at least that of the original. Missing: a vehicle
whose route was improved more than once in the pass gets all the improved routes (`C41_two_routes`). -/
theorem C41_two_opt_partial {k : Objective} (hE : EnvOK E) {h : Heap} {rs : List Nat} (o : OnePerVehicle E h rs)
    {order : List Nat → List Nat} (ho : ∀ l, (order l).Perm l) :
    ∃ l h', improveWith E order (twoOpt E k) rs h = (.ok l, h') ∧ LeftAlone E h h' rs ∧
      (∀ q ∈ l, Sound E h' q ∧ h.core.nRoute ≤ q ∧ ∃ r ∈ rs, (h'.core.route q).vehicle = (h.core.route r).vehicle ∧
        (tripsOf h'.core q).Perm (tripsOf h.core r) ∧
        routeValue E (planOf E h.core r).1 (planOf E h.core r).2 k ≤ routeValue E (planOf E h'.core q).1 (planOf E h'.core q).2 k) ∧
      (∀ r ∈ rs, ∃ q ∈ l, (h'.core.route q).vehicle = (h.core.route r).vehicle) ∧
      ((l.map fun q => (h'.core.route q).vehicle).Nodup → OnePerVehicle E h' l ∧ SameWork h.core rs h'.core l ∧
        planningValue E k (rs.map (planOf E h.core)) ≤ planningValue E k (l.map (planOf E h'.core))) := by
  obtain ⟨l, h', e, t⟩ := improve_twoOpt (k := k) hE o.inv o.vehicles ho
  have hfrom : ∀ q ∈ l, ∃ r ∈ rs, (h'.core.route q).vehicle = (h.core.route r).vehicle ∧
      ((tripsOf h'.core q).Perm (tripsOf h.core r) ∧
        routeValue E (planOf E h.core r).1 (planOf E h.core r).2 k ≤ routeValue E (planOf E h'.core q).1 (planOf E h'.core q).2 k) := by
    intro q hq
    obtain ⟨r, hr, hv, h0⟩ := t.from_ q hq
    refine ⟨r, hr, hv, ?_⟩
    rcases h0 with h0 | h0
    · unfold tripsOf planOf
      rw [h0, hv]
      exact ⟨List.Perm.refl _, le_refl _⟩
    · obtain ⟨i, j, _, _, h3, h4⟩ := h0.shape
      refine ⟨?_, le_of_lt h0.value⟩
      unfold tripsOf
      rw [h4]
      exact (reversed_perm j h3).flatMap_right _
  have hsound : ∀ q ∈ l, Sound E h' q := fun q hq => t.inv.sound (.inr hq)
  refine ⟨l, h', e, ?_, fun q hq => ⟨hsound q hq, t.fresh q hq, hfrom q hq⟩, t.each, ?_⟩
  · intro r hr
    exact ⟨t.inv.sound (.inl hr), by rw [t.alone.route r hr], t.alone.itinerary hr⟩
  · intro hn
    obtain ⟨g, hg, hp⟩ := matched hn o.vehicles hfrom t.each
    have htrips : (l.flatMap (tripsOf h'.core)).Perm (rs.flatMap (tripsOf h.core)) := by
      refine List.Perm.trans ?_ (hp.flatMap_right _)
      rw [List.flatMap_map]
      exact List.Perm.flatMap_left _ fun q hq => (hg q hq).1.1
    refine ⟨⟨hsound, hn, htrips.nodup_iff.2 o.trips⟩, ⟨?_, htrips⟩, ?_⟩
    · refine List.Perm.trans (List.Perm.of_eq ?_) (hp.map _)
      rw [List.map_map]
      exact List.map_congr_left fun q hq => (hg q hq).2
    · rw [← planningValue_perm (hp.map _), List.map_map]
      exact planningValue_mono fun q hq => (hg q hq).1.2

/-! ### The case of two improvements of one route -/

/-- Four trips to 20 from 9, 5, 1 and 3; the vehicle starts at 0. -/
def zigzagEnv : Env where
  metric := manhattan
  trip := fun t => { origin := { position := [[9, 5, 1, 3].getD t 0] }, destination := { position := [20] } }
  vehicle := fun _ => { origin := { position := [0] }, capacity := 10 }

theorem zigzagEnv_ok : EnvOK zigzagEnv where
  metric := manhattan_nonneg
  originDuration _ := le_refl _
  destinationDuration _ := le_refl _
  capacity _ := by show (0 : ℚ) ≤ 1; norm_num

def zigzag0 : Heap := (newRoute zigzagEnv 0 .empty).2
def zigzag1 : Heap := (compute zigzagEnv true 0 [0] 0 1 zigzag0).2
def zigzag2 : Heap := (compute zigzagEnv true 1 [1] 1 2 zigzag1).2
def zigzag3 : Heap := (compute zigzagEnv true 2 [2] 2 3 zigzag2).2
/-- Route 4 picks the trips up in the order 0, 1, 2, 3, at 9, 5, 1 and 3. -/
def zigzag4 : Heap := (compute zigzagEnv true 3 [3] 3 4 zigzag3).2

theorem zigzag_reach : Reach zigzagEnv zigzag4 := by
  have r0 : Reach zigzagEnv zigzag0 := .newRoute (v := 0) (r := 0) .empty (eq_of_fst (by decide +kernel))
  have r1 : Reach zigzagEnv zigzag1 := .compute (rs := [1]) r0 (by decide +kernel) (by decide) (by decide +kernel) (by decide +kernel)
    (eq_of_fst (by decide +kernel))
  have r2 : Reach zigzagEnv zigzag2 := .compute (rs := [2]) r1 (by decide +kernel) (by decide) (by decide +kernel) (by decide +kernel)
    (eq_of_fst (by decide +kernel))
  have r3 : Reach zigzagEnv zigzag3 := .compute (rs := [3]) r2 (by decide +kernel) (by decide) (by decide +kernel) (by decide +kernel)
    (eq_of_fst (by decide +kernel))
  exact .compute (rs := [4]) r3 (by decide +kernel) (by decide) (by decide +kernel) (by decide +kernel)
    (eq_of_fst (by decide +kernel))

theorem zigzag_one : OnePerVehicle zigzagEnv zigzag4 [4] where
  sound r hr := by
    have := (zigzag_reach.inv (md := .any) zigzagEnv_ok (fun h => nomatch h)).sound (q := 4) (by show 4 < zigzag4.core.nRoute; decide +kernel)
    simp at hr
    rw [hr]; exact this
  vehicles := by decide +kernel
  trips := by decide +kernel

/-- What two-opt leaves behind. -/
def zigzag5 : Heap := (improveWith zigzagEnv id (twoOpt zigzagEnv .dialARide) [4] zigzag4).2

theorem zigzag_run : improveWith zigzagEnv id (twoOpt zigzagEnv .dialARide) [4] zigzag4 = (.ok [10, 11], zigzag5) :=
  eq_of_fst (by decide +kernel)

/-- C41 is false: the route is improved twice in one pass, and both improved routes end up in the planning. The only
vehicle has two routes and every trip is served twice. -/
theorem C41_two_routes : ¬ TwoOptKeepsWork zigzagEnv .dialARide := by
  intro hp
  have := (hp zigzag4 zigzag5 [4] [10, 11] id zigzag_one (fun l => List.Perm.refl l) zigzag_run).vehicles.length_eq
  simp at this

example : (zigzag5.core.route 10).vehicle = 0 ∧ (zigzag5.core.route 11).vehicle = 0 ∧ tripsOf zigzag5.core 10 = [2, 1, 0, 3] ∧
    tripsOf zigzag5.core 11 = [3, 2, 1, 0] := by decide +kernel

/-- The route itself meets the hypotheses of C42; the segment from stop 1 to 3 can be reversed, the one from 4 to 5
cannot. -/
example : Sound zigzagEnv zigzag4 4 ∧ (zigzag4.core.route 4).stops.length = 10 ∧
    twoOptBlocked zigzag4.core (((zigzag4.core.route 4).stops.take 4).drop 1) = false ∧
    twoOptBlocked zigzag4.core (((zigzag4.core.route 4).stops.take 6).drop 4) = true :=
  ⟨zigzag_one.sound 4 (by simp), by decide +kernel, by decide +kernel, by decide +kernel⟩

/-- Only the first three trips. -/
def straight3 : Heap := (improveWith zigzagEnv id (twoOpt zigzagEnv .dialARide) [3] zigzag3).2

/-- Two-opt improves the route of three trips once: the result has one route, of the same vehicle and with the same
trips, and is strictly better. -/
example : improveWith zigzagEnv id (twoOpt zigzagEnv .dialARide) [3] zigzag3 = (.ok [8], straight3) ∧
    ([8].map fun q => (straight3.core.route q).vehicle).Nodup ∧ tripsOf straight3.core 8 = [2, 1, 0] ∧
    tripsOf zigzag3.core 3 = [0, 1, 2] ∧
    planningValue zigzagEnv .dialARide ([3].map (planOf zigzagEnv zigzag3.core)) <
      planningValue zigzagEnv .dialARide ([8].map (planOf zigzagEnv straight3.core)) :=
  ⟨eq_of_fst (by decide +kernel), by decide +kernel, by decide +kernel, by decide +kernel, by decide +kernel⟩

/-! ## C72 -/

/-- **C72.** Two-opt keeps plannings feasible: if the routes it starts from meet the routing constraints, so do all
routes of its result, whatever verdicts are memoised. In states reached by the insertion strategies the routes it adds
meet the constraints of `LooselyFeasible` even if those it starts from do not, and all
constraints if no trip has a maximum ride time. -/
theorem C72_two_opt_feasible {k : Objective} (hE : EnvOK E) {h : Heap} {rs : List Nat} (o : OnePerVehicle E h rs)
    {order : List Nat → List Nat} (ho : ∀ l, (order l).Perm l) :
    ∃ l h', improveWith E order (twoOpt E k) rs h = (.ok l, h') ∧
      ((∀ r ∈ rs, FeasibleItinerary E (planOf E h.core r).1 (planOf E h.core r).2) →
        ∀ q ∈ l, FeasibleItinerary E (planOf E h'.core q).1 (planOf E h'.core q).2) ∧
      (Reach E h → (∀ q ∈ l, (∃ r ∈ rs, planOf E h'.core q = planOf E h.core r) ∨
          LooselyFeasible E (planOf E h'.core q).1 (planOf E h'.core q).2) ∧
        ((∀ t, (E.trip t).timeout = .inf) → ∀ q ∈ l, (∃ r ∈ rs, planOf E h'.core q = planOf E h.core r) ∨
          FeasibleItinerary E (planOf E h'.core q).1 (planOf E h'.core q).2)) := by
  obtain ⟨l, h', e, t⟩ := improve_twoOpt (k := k) hE o.inv o.vehicles ho
  refine ⟨l, h', e, ?_, ?_⟩
  · intro hf q hq
    obtain ⟨r, hr, hv, h0 | h0⟩ := t.from_ q hq
    · have := hf r hr
      unfold planOf at *
      rw [h0, hv]; exact this
    · exact h0.feasible (hf r hr)
  · intro hreach
    have main : ∀ md, (md = .exact → ∀ t, (E.trip t).timeout = .inf) → TwoOptResult E k md h rs l h' := by
      intro md hx
      obtain ⟨l2, h2, e2, t2⟩ := improve_twoOpt (k := k) (md := md) hE
        ((hreach.inv hE hx).subset fun q hq => (o.sound q hq).1.exists_) o.vehicles ho
      rw [e] at e2
      cases e2
      exact t2
    have kept : ∀ q r, (h'.core.route q).vehicle = (h.core.route r).vehicle → itinerary h'.core q = itinerary h.core r →
        planOf E h'.core q = planOf E h.core r := fun q r h1 h2 => by unfold planOf; rw [h1, h2]
    refine ⟨fun q hq => ?_, fun hinf q hq => ?_⟩
    · obtain ⟨r, hr, hv, h0 | h0⟩ := (main .sound (fun h => nomatch h)).from_ q hq
      · exact .inl ⟨r, hr, kept q r hv h0⟩
      · exact .inr (h0.loose (fun h => nomatch h))
    · obtain ⟨r, hr, hv, h0 | h0⟩ := (main .exact (fun _ => hinf)).from_ q hq
      · exact .inl ⟨r, hr, kept q r hv h0⟩
      · exact .inr (h0.exact rfl)

/-- The routes two-opt starts from and the ones it yields are feasible. -/
example : FeasibleItinerary zigzagEnv (planOf zigzagEnv zigzag4.core 4).1 (planOf zigzagEnv zigzag4.core 4).2 ∧
    FeasibleItinerary zigzagEnv (planOf zigzagEnv zigzag5.core 11).1 (planOf zigzagEnv zigzag5.core 11).2 := by
  have hf : FeasibleItinerary zigzagEnv (planOf zigzagEnv zigzag4.core 4).1 (planOf zigzagEnv zigzag4.core 4).2 :=
    (freshV_iff (zigzag_one.sound 4 (by simp)).1).1 (by decide +kernel)
  obtain ⟨l, h', e, h1, _⟩ := C72_two_opt_feasible (k := .dialARide) zigzagEnv_ok zigzag_one (order := id) (fun l => List.Perm.refl l)
  rw [zigzag_run] at e
  cases e
  exact ⟨hf, h1 (by simpa using hf) 11 (by simp)⟩

end Jinete
