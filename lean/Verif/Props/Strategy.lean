import Verif.Proofs.Reach
import Verif.Props.Feasible
import Verif.Props.Utils

/-!
# C21, C22, C23, C24: insertion strategies
-/

set_option autoImplicit false

namespace Jinete

variable {E : Env}

/-! ## C21 -/

/-- One well formed route with agreeing memoised numbers, whatever the memoised verdicts. -/
theorem Inv.single {h : Heap} {r : Nat} (hw : WellFormed h.core r) (ha : CachesAgree E h r) :
    Inv E .any (· = r) h := by
  have ha' := (cachesAgree_iff hw.toChained).1 ha
  refine ⟨⟨?_, ?_, ?_⟩, ⟨?_, ?_, ?_⟩⟩
  · rintro q rfl; exact hw
  · rintro q rfl; exact ha'
  · rintro q rfl q' rfl _ _ _; rfl
  · rintro q rfl b _; exact ⟨fun h => absurd rfl h, fun _ _ _ => ⟨fun h => absurd rfl h, fun h => nomatch h⟩⟩
  · rintro q rfl s _ b _; exact ⟨fun h => absurd rfl h, fun h => nomatch h⟩
  · rintro q rfl p _ b _; exact ⟨fun h => absurd rfl h, fun h => nomatch h⟩

/-- What is reported about a route of the family that is still there. -/
theorem Inv.report {md : Mode} {R : Nat → Prop} {h : Heap} (inv : Inv E md R h) {q : Nat} (hq : R q) :
    WellFormed h.core q ∧ CachesAgree E h q :=
  ⟨inv.ok.wf q hq, (cachesAgree_iff (inv.ok.wf q hq).toChained).2 (inv.ok.agree q hq)⟩

/-- Two runs over the same list: the kept ones are a sublist, all of them if nothing is filtered. -/
theorem kept_sublist (f : Bool) (cand : List (Nat × Bool)) :
    ((cand.filter fun c => !f || c.2).map Prod.fst).Sublist (cand.map Prod.fst) ∧
      (f = false → (cand.filter fun c => !f || c.2).map Prod.fst = cand.map Prod.fst) := by
  refine ⟨List.filter_sublist.map _, ?_⟩
  rintro rfl
  simp

/-- **C21.** `compute(route, trips, i, j)` raises nothing for `0 <= i < j < len(route.stops)`. It builds one
new route object per trip, each of the same vehicle, well formed, and serving the duties of the given route in
the same order plus a pickup of the trip right after the `i`-th stop and a delivery of it before the `j`-th
stop. It returns those of them it judges feasible, in order, or all of them without `only_feasible`. The given
route still has its vehicle and duties. -/
theorem C21_candidates (hE : EnvOK E) (f : Bool) (h : Heap) (r i j : Nat) (ts : List Nat) (hw : WellFormed h.core r)
    (ha : CachesAgree E h r) (hij : i < j) (hj : j < (h.core.route r).stops.length)
    (hts : ∀ t ∈ ts, t ∉ tripsOf h.core r) :
    ∃ rs cands h', compute E f r ts i j h = (.ok rs, h') ∧ rs.Sublist cands ∧ (f = false → rs = cands) ∧
      cands = List.range' h.core.nRoute ts.length ∧
      cands.map (duties h'.core) = ts.map (fun t => withTrip E t i j (duties h.core r)) ∧
      (∀ q ∈ cands, (h'.core.route q).vehicle = (h.core.route r).vehicle ∧ WellFormed h'.core q ∧ CachesAgree E h' q) ∧
      h'.core.route r = h.core.route r ∧ duties h'.core r = duties h.core r ∧ WellFormed h'.core r ∧ CachesAgree E h' r := by
  obtain ⟨cand, h', e, ba⟩ := compute_run (md := .any) hE (fun h => nomatch h) f (Inv.single hw ha) rfl ts hij hj hts
  obtain ⟨s1, s2⟩ := kept_sublist f cand
  have hids := ba.ids
  rw [List.length_map] at hids
  have hn := ba.nRoute
  rw [List.length_map] at hn
  refine ⟨_, cand.map Prod.fst, h', e, s1, s2, hids, ?_, ?_, ba.same.route r rfl, ba.same.duties rfl, ba.inv.report (.inl rfl)⟩
  · have := ba.duties
    rw [List.map_map] at this ⊢
    exact this
  · intro q hq
    have hrg := hq
    rw [hids, List.mem_range'_1] at hrg
    obtain ⟨c, hc, rfl⟩ := List.mem_map.1 hq
    exact ⟨ba.vehicle c hc, ba.inv.report (.inr ⟨hrg.1, by omega⟩)⟩

/-- Inserting trip 2 into the demo route, which serves trips 0 and 1: the hypotheses hold and a candidate is
returned. -/
example : WellFormed demoHeap.core 2 ∧ CachesAgree demoEnv demoHeap 2 ∧ 2 ∉ tripsOf demoHeap.core 2 ∧
    5 < (demoHeap.core.route 2).stops.length ∧ (compute demoEnv true 2 [2] 3 5 demoHeap).1 = .ok [3] :=
  ⟨demo_ok.2.1, demo_ok.2.2, by decide +kernel, by decide +kernel, by decide +kernel⟩

/-- What "right after the `i`-th, before the `j`-th" means, on letters. -/
example (a b c d : Duty) : withTrip E 7 1 3 [a, b, c, d] = [a, b, pickDuty E 7, c, dropDuty E 7, d] := rfl

/-! ## C22 -/

/-- A placement in a list of duties: what comes before the pickup, between pickup and delivery, and after the
delivery. The first and the last duty stay first and last. -/
structure Placement (l : List Duty) where
  before : List Duty
  between : List Duty
  after : List Duty
  whole : before ++ between ++ after = l
  first : before ≠ []
  last : after ≠ []
  deriving DecidableEq

/-- The duties with the trip placed. -/
def Placement.result (E : Env) (t : Nat) {l : List Duty} (p : Placement l) : List Duty :=
  p.before ++ [pickDuty E t] ++ p.between ++ [dropDuty E t] ++ p.after

/-- The placement given by an index pair. -/
def placementAt (l : List Duty) (i j : Nat) (hij : i < j) (hj : j < l.length) : Placement l where
  before := l.take (i + 1)
  between := (l.take j).drop (i + 1)
  after := l.drop j
  whole := by
    have e : l.take (i + 1) = (l.take j).take (i + 1) := by rw [List.take_take, min_eq_left (by omega)]
    rw [e, List.take_append_drop, List.take_append_drop]
  first := by
    intro h
    have := congrArg List.length h
    simp only [List.length_take, List.length_nil] at this
    omega
  last := by
    intro h
    have := congrArg List.length h
    simp only [List.length_drop, List.length_nil] at this
    omega

theorem placementAt_result (l : List Duty) (t i j : Nat) (hij : i < j) (hj : j < l.length) :
    (placementAt l i j hij hj).result E t = withTrip E t i j l := by
  simp [Placement.result, placementAt, withTrip]

theorem placementAt_inj {l : List Duty} {i j i' j' : Nat} {h1 h2 h1' h2'}
    (h : placementAt l i j h1 h2 = placementAt l i' j' h1' h2') : i = i' ∧ j = j' := by
  have a := congrArg (fun p => p.before.length) h
  have b := congrArg (fun p => p.after.length) h
  simp only [placementAt, List.length_take, List.length_drop] at a b
  omega

theorem Placement.eq_at {l : List Duty} (p : Placement l) : ∃ i j h1 h2, p = placementAt l i j h1 h2 := by
  obtain ⟨a, b, c, whole, first, last⟩ := p
  have ha : 0 < a.length := List.length_pos_iff.2 first
  have hc : 0 < c.length := List.length_pos_iff.2 last
  subst whole
  refine ⟨a.length - 1, a.length + b.length, by omega, by simp; omega, ?_⟩
  have e : a.length - 1 + 1 = a.length := by omega
  unfold placementAt
  simp only [Placement.mk.injEq, e]
  refine ⟨by simp, ?_, ?_⟩
  · rw [List.take_left' (by simp), List.drop_left]
  · rw [List.drop_left' (by simp)]

/-- The placements of a list of index pairs. -/
def placements (l : List Duty) (ps : List (Nat × Nat)) : List (Placement l) :=
  ps.filterMap fun p => if h : p.1 < p.2 ∧ p.2 < l.length then some (placementAt l p.1 p.2 h.1 h.2) else none

theorem placements_mem {l : List Duty} {ps : List (Nat × Nat)} (p : Placement l) :
    p ∈ placements l ps ↔ ∃ i j, ∃ h1 h2, (i, j) ∈ ps ∧ p = placementAt l i j h1 h2 := by
  unfold placements
  rw [List.mem_filterMap]
  constructor
  · rintro ⟨x, hx, hp⟩
    split at hp
    · rename_i hv
      exact ⟨x.1, x.2, hv.1, hv.2, hx, by simpa using hp.symm⟩
    · simp at hp
  · rintro ⟨i, j, h1, h2, hx, rfl⟩
    exact ⟨(i, j), hx, by rw [dif_pos ⟨h1, h2⟩]⟩

theorem placements_nodup {l : List Duty} {ps : List (Nat × Nat)} (hn : ps.Nodup) : (placements l ps).Nodup := by
  unfold placements
  refine hn.filterMap ?_
  intro x y p hx hy
  simp only [Option.mem_def] at hx hy
  split at hx
  · split at hy
    · have e := (Option.some.inj hx).trans (Option.some.inj hy).symm
      have := placementAt_inj e
      exact Prod.ext this.1 this.2
    · simp at hy
  · simp at hx

theorem placements_length {l : List Duty} {ps : List (Nat × Nat)} (hv : ∀ p ∈ ps, ValidPair l.length p) :
    (placements l ps).length = ps.length := by
  induction ps with
  | nil => rfl
  | cons x ps ih =>
    have hx := hv x (by simp)
    unfold ValidPair at hx
    have := ih fun p hp => hv p (by simp [hp])
    unfold placements at this ⊢
    rw [List.filterMap_cons, dif_pos hx]
    simp [this]

theorem placements_results {l : List Duty} {ps : List (Nat × Nat)} (hv : ∀ p ∈ ps, ValidPair l.length p) (ts : List Nat) :
    (ps.flatMap fun x => ts.map fun t => (t, x.1, x.2)).map (fun x => withTrip E x.1 x.2.1 x.2.2 l) =
      (placements l ps).flatMap fun p => ts.map fun t => p.result E t := by
  induction ps with
  | nil => rfl
  | cons x ps ih =>
    have hx := hv x (by simp)
    unfold ValidPair at hx
    have hi := ih fun p hp => hv p (by simp [hp])
    have hc : placements l (x :: ps) = placementAt l x.1 x.2 hx.1 hx.2 :: placements l ps := by
      unfold placements
      rw [List.filterMap_cons, dif_pos hx]
    rw [hc, List.flatMap_cons, List.flatMap_cons, List.map_append, hi, List.map_map]
    congr 1
    exact List.map_congr_left fun t _ => (placementAt_result l t x.1 x.2 hx.1 hx.2).symm

theorem split_unique {α : Type} {x : α} {a b a' b' : List α} (h : a ++ x :: b = a' ++ x :: b') (ha : x ∉ a) (ha' : x ∉ a') :
    a = a' ∧ b = b' := by
  induction a generalizing a' with
  | nil =>
    cases a' with
    | nil => simpa using h
    | cons y a' =>
      simp only [List.nil_append, List.cons_append, List.cons.injEq] at h
      exact absurd (by simp [h.1]) ha'
  | cons y a ih =>
    cases a' with
    | nil =>
      simp only [List.nil_append, List.cons_append, List.cons.injEq] at h
      exact absurd (by simp [h.1]) ha
    | cons z a' =>
      simp only [List.cons_append, List.cons.injEq] at h
      obtain ⟨e1, e2⟩ := ih h.2 (fun hm => ha (by simp [hm])) (fun hm => ha' (by simp [hm]))
      exact ⟨by rw [h.1, e1], e2⟩

/-- The trips dropped along a well formed route are picked up along it. -/
theorem WellFormed.dropped {c : Core} {r t : Nat} (hw : WellFormed c r) {d : Duty} (hd : d ∈ duties c r) (ht : t ∈ d.drops) :
    t ∈ tripsOf c r := by
  unfold duties itinerary at hd
  simp only [List.map_map, List.mem_map, Function.comp] at hd
  obtain ⟨s, hs, rfl⟩ := hd
  have ht' : t ∈ (c.stop s).deliveries.map fun p => (c.pt p).trip := ht
  obtain ⟨p, hp, rfl⟩ := List.mem_map.1 ht'
  obtain ⟨pre, suf, e⟩ := List.append_of_mem hs
  obtain ⟨_, _, u, hu, _, hpu⟩ := hw.drop pre s suf e p hp
  unfold tripsOf itinerary
  rw [List.mem_flatMap]
  exact ⟨visitOf c u, List.mem_map_of_mem (by rw [e]; simp [hu]), List.mem_map_of_mem hpu⟩

theorem Placement.result_inj {c : Core} {r t t' : Nat} (hw : WellFormed c r) (ht : t ∉ tripsOf c r) (ht' : t' ∉ tripsOf c r)
    {p q : Placement (duties c r)} (h : p.result E t = q.result E t') : p = q ∧ t = t' := by
  have picked : ∀ d ∈ duties c r, ∀ x ∈ d.picks, x ∈ tripsOf c r := by
    intro d hd x hx
    rw [picks_duties]
    exact List.mem_flatMap.2 ⟨d, hd, hx⟩
  have key : ∀ (p : Placement (duties c r)) (t : Nat), (p.result E t).flatMap Duty.picks =
      p.before.flatMap Duty.picks ++ t :: (p.between.flatMap Duty.picks ++ p.after.flatMap Duty.picks) := by
    intro p t
    simp [Placement.result, pickDuty, dropDuty]
  have hmem : ∀ (p : Placement (duties c r)) (x : Duty), x ∈ p.before ∨ x ∈ p.between ∨ x ∈ p.after → x ∈ duties c r := by
    intro p x hx
    rw [← p.whole]
    simp only [List.mem_append]
    tauto
  have htt : t = t' := by
    have h1 : t ∈ (q.result E t').flatMap Duty.picks := by rw [← h, key]; simp
    rw [key] at h1
    simp only [List.mem_append, List.mem_cons, List.mem_flatMap] at h1
    rcases h1 with ⟨d, hd, hx⟩ | rfl | ⟨d, hd, hx⟩ | ⟨d, hd, hx⟩
    · exact absurd (picked d (hmem q d (.inl hd)) t hx) ht
    · rfl
    · exact absurd (picked d (hmem q d (.inr (.inl hd))) t hx) ht
    · exact absurd (picked d (hmem q d (.inr (.inr hd))) t hx) ht
  subst htt
  refine ⟨?_, rfl⟩
  have npick : pickDuty E t ∉ duties c r := fun hm => ht (picked _ hm t (by simp [pickDuty]))
  have ndrop : dropDuty E t ∉ duties c r := fun hm => ht (hw.dropped hm (by simp [dropDuty]))
  unfold Placement.result at h
  simp only [List.append_assoc, List.singleton_append] at h
  obtain ⟨e1, e2⟩ := split_unique h (fun hm => npick (hmem p _ (.inl hm))) (fun hm => npick (hmem q _ (.inl hm)))
  obtain ⟨e3, e4⟩ := split_unique e2 (fun hm => ndrop (hmem p _ (.inr (.inl hm)))) (fun hm => ndrop (hmem q _ (.inr (.inl hm))))
  obtain ⟨a, b, c, _, _, _⟩ := p
  obtain ⟨a', b', c', _, _, _⟩ := q
  simp only at e1 e3 e4
  subst e1 e3 e4
  rfl

/-- The candidates of a list of distinct valid index pairs. -/
theorem pairs_candidates (hE : EnvOK E) (f : Bool) (h : Heap) (r : Nat) (ts : List Nat) (ps : List (Nat × Nat))
    (hw : WellFormed h.core r) (ha : CachesAgree E h r) (hts : ∀ t ∈ ts, t ∉ tripsOf h.core r) (hn : ps.Nodup)
    (hv : ∀ p ∈ ps, ValidPair (h.core.route r).stops.length p) :
    ∃ rs cands h', computePairs E f r ts ps h = (.ok rs, h') ∧ rs.Sublist cands ∧ (f = false → rs = cands) ∧
      cands.map (duties h'.core) = (placements (duties h.core r) ps).flatMap (fun p => ts.map fun t => p.result E t) ∧
      (ts.Nodup → (cands.map (duties h'.core)).Nodup) := by
  obtain ⟨cand, h', e, ba⟩ := computePairs_run (md := .any) hE (fun h => nomatch h) f (Inv.single hw ha) rfl ts ps hv hts
  obtain ⟨s1, s2⟩ := kept_sublist f cand
  have hlen : (duties h.core r).length = (h.core.route r).stops.length := by simp [duties, itinerary]
  have hd : (cand.map Prod.fst).map (duties h'.core) =
      (placements (duties h.core r) ps).flatMap (fun p => ts.map fun t => p.result E t) := by
    have := ba.duties
    rw [placements_results (by rw [hlen]; exact hv)] at this
    rw [List.map_map]
    exact this
  refine ⟨_, cand.map Prod.fst, h', e, s1, s2, hd, ?_⟩
  intro hnd
  rw [hd, List.nodup_flatMap]
  refine ⟨?_, ?_⟩
  · intro p _
    refine (List.nodup_map_iff_inj_on hnd).2 ?_
    intro x hx y hy hxy
    exact (Placement.result_inj hw (hts x hx) (hts y hy) hxy).2
  · refine (placements_nodup hn).imp ?_
    intro p q hpq
    rw [Function.onFun, List.disjoint_left]
    intro a h1 h2
    obtain ⟨x, hx, rfl⟩ := List.mem_map.1 h1
    obtain ⟨y, hy, hxy⟩ := List.mem_map.1 h2
    exact hpq (Placement.result_inj hw (hts x hx) (hts y hy) hxy.symm).1

/-- **C22.** `IntensiveInsertionStrategy.compute` considers, for every trip, every way of placing a pickup and a
later delivery between the first and the last stop, and no placement twice (candidate duty lists are pairwise
different). -/
theorem C22_intensive_enumerates (hE : EnvOK E) (f : Bool) (h : Heap) (r : Nat) (ts : List Nat) (hw : WellFormed h.core r)
    (ha : CachesAgree E h r) (hts : ∀ t ∈ ts, t ∉ tripsOf h.core r) :
    ∃ rs cands h', computeIntensive E f r ts h = (.ok rs, h') ∧ rs.Sublist cands ∧ (f = false → rs = cands) ∧
      ∃ all : List (Placement (duties h.core r)), all.Nodup ∧ (∀ p, p ∈ all) ∧
        cands.map (duties h'.core) = all.flatMap (fun p => ts.map fun t => p.result E t) ∧
        (ts.Nodup → (cands.map (duties h'.core)).Nodup) := by
  set n := (h.core.route r).stops.length with hn
  obtain ⟨rs, cands, h', e, s1, s2, s3, s4⟩ := pairs_candidates hE f h r ts (combinations2 n) hw ha hts
    (combinations2_nodup n) (fun p hp => (combinations2_mem n p).1 hp)
  have hlen : (duties h.core r).length = n := by simp [duties, itinerary, hn]
  refine ⟨rs, cands, h', ?_, s1, s2, _, placements_nodup (combinations2_nodup n), ?_, s3, s4⟩
  · unfold computeIntensive
    rw [Py.bind_ok (show routeStops r h = (.ok (h.core.route r).stops, h) from rfl)]
    exact e
  · intro p
    obtain ⟨i, j, h1, h2, rfl⟩ := p.eq_at
    rw [placements_mem]
    exact ⟨i, j, h1, h2, (combinations2_mem n _).2 ⟨h1, by rw [← hlen]; exact h2⟩, rfl⟩

/-- **C22 (tail).** `TailInsertionStrategy.compute` considers, for every trip, only the placement of the pickup
and the delivery right before the last stop. -/
theorem C22_tail_appends (hE : EnvOK E) (f : Bool) (h : Heap) (r : Nat) (ts : List Nat) (hw : WellFormed h.core r)
    (ha : CachesAgree E h r) (hts : ∀ t ∈ ts, t ∉ tripsOf h.core r) :
    ∃ rs cands h', computeTail E f r ts h = (.ok rs, h') ∧ rs.Sublist cands ∧ (f = false → rs = cands) ∧
      ∃ last, duties h.core r = (duties h.core r).dropLast ++ [last] ∧ cands.map (duties h'.core) =
        ts.map fun t => (duties h.core r).dropLast ++ [pickDuty E t, dropDuty E t, last] := by
  set n := (h.core.route r).stops.length with hn
  have hlen : (duties h.core r).length = n := by simp [duties, itinerary, hn]
  have h2 : 2 ≤ n := hw.length
  obtain ⟨rs, cands, h', e, s1, s2, _, s3, _⟩ := C21_candidates hE f h r (n - 2) (n - 1) ts hw ha (by omega) (by omega) hts
  refine ⟨rs, cands, h', ?_, s1, s2, ?_⟩
  · unfold computeTail
    rw [Py.bind_ok (show routeStops r h = (.ok (h.core.route r).stops, h) from rfl)]
    exact e
  · have hne : duties h.core r ≠ [] := by
      intro h0; rw [h0] at hlen; simp at hlen; omega
    refine ⟨(duties h.core r).getLast hne, (List.dropLast_append_getLast hne).symm, ?_⟩
    rw [s3]
    refine List.map_congr_left fun t _ => ?_
    unfold withTrip
    have e1 : n - 2 + 1 = n - 1 := by omega
    have e2 : (duties h.core r).take (n - 1) = (duties h.core r).dropLast := by rw [List.dropLast_eq_take, hlen]
    have e3 : (duties h.core r).drop (n - 1) = [(duties h.core r).getLast hne] := by
      rw [← hlen]; exact List.drop_length_sub_one hne
    rw [e1, e2, e3]
    have e4 : (duties h.core r).dropLast.drop (n - 1) = [] := List.drop_eq_nil_of_le (by simp [hlen])
    rw [e4]
    simp

/-- **C22 (sampling).** Whenever `SamplingInsertionStrategy.compute` gets its sample, it considers
`min(count, n(n-1)/2)` pairwise different placements, for every random stream. -/
theorem C22_sampling_considers (hE : EnvOK E) (f : Bool) (h : Heap) (r : Nat) (ts : List Nat) (count fuel : Nat)
    (rnd : Nat → Nat → Nat → Nat) (hr : RandInt rnd) (ps : List (Nat × Nat)) (hw : WellFormed h.core r)
    (ha : CachesAgree E h r) (hts : ∀ t ∈ ts, t ∉ tripsOf h.core r)
    (hps : sampleIndexPairs (h.core.route r).stops.length count rnd fuel = some ps) :
    ∃ rs cands h', computeSampling E f r ts count rnd fuel h = (.ok rs, h') ∧ rs.Sublist cands ∧ (f = false → rs = cands) ∧
      ∃ some_ : List (Placement (duties h.core r)), some_.Nodup ∧
        some_.length = min count ((duties h.core r).length.choose 2) ∧
        cands.map (duties h'.core) = some_.flatMap (fun p => ts.map fun t => p.result E t) ∧
        (ts.Nodup → (cands.map (duties h'.core)).Nodup) := by
  set n := (h.core.route r).stops.length with hn
  have hlen : (duties h.core r).length = n := by simp [duties, itinerary, hn]
  obtain ⟨k1, k2, k3⟩ := (C25_sample_index_pairs n count fuel rnd hr hw.length).1 ps hps
  obtain ⟨rs, cands, h', e, s1, s2, s3, s4⟩ := pairs_candidates hE f h r ts ps hw ha hts k1 k2
  refine ⟨rs, cands, h', ?_, s1, s2, _, placements_nodup k1, ?_, s3, s4⟩
  · unfold computeSampling
    rw [Py.bind_ok (show routeStops r h = (.ok (h.core.route r).stops, h) from rfl)]
    simp only [← hn, hps]
    exact e
  · rw [placements_length (by rw [hlen]; exact k2), k3, hlen]

/-- The demo route has 6 stops, hence 15 placements for trip 2; all candidates are different. -/
example : WellFormed demoHeap.core 2 ∧ CachesAgree demoEnv demoHeap 2 ∧ 2 ∉ tripsOf demoHeap.core 2 ∧
    (computeIntensive demoEnv false 2 [2] demoHeap).1 = .ok (List.range' 3 15) ∧
    (computeTail demoEnv false 2 [2] demoHeap).1 = .ok [3] ∧
    (computeSampling demoEnv false 2 [2] 2 (fun k lo hi => if k < 2 then lo else hi) 5 demoHeap).1 = .ok [3, 4] :=
  ⟨demo_ok.2.1, demo_ok.2.2, by decide +kernel, by decide +kernel, by decide +kernel, by decide +kernel⟩

/-! ## C23 -/

/-- The full claim C23: in every state reached by building routes, whatever `compute` returns with
`only_feasible=True` meets the routing constraints of C18. -/
def ReturnedFeasible (E : Env) : Prop :=
  ∀ (h h' : Heap) (r i j : Nat) (ts rs : List Nat), Reach E h → r < h.core.nRoute → i < j →
    j < (h.core.route r).stops.length → (∀ t ∈ ts, t ∉ tripsOf h.core r) → compute E true r ts i j h = (.ok rs, h') →
    ∀ q ∈ rs, FeasibleItinerary E (E.vehicle (h'.core.route q).vehicle) (itinerary h'.core q)

/-- Trip 0 may last at most 30; trip 1 must be picked up by 15; trip 2 opens at 100. -/
def tightEnv : Env where
  metric := manhattan
  trip := fun t =>
    if t = 0 then { origin := { position := [10], latest := .fin 200 }, destination := { position := [20], latest := .fin 1000 }, timeout := .fin 30 }
    else if t = 1 then { origin := { position := [12], latest := .fin 15 }, destination := { position := [24], latest := .fin 1000 } }
    else { origin := { position := [14], earliest := 100, latest := .fin 200 }, destination := { position := [28], latest := .fin 1000 } }
  vehicle := fun _ => { origin := { position := [0] }, capacity := 3 }

/-- State after creating an empty route. -/
def tight0 : Heap := (newRoute tightEnv 0 Heap.empty).2
/-- Trip 0 inserted. -/
def tight1 : Heap := (compute tightEnv true 0 [0] 0 1 tight0).2
/-- Trip 1 inserted inside trip 0. -/
def tight2 : Heap := (compute tightEnv true 1 [1] 1 3 tight1).2
/-- Trip 2 inserted. -/
def tight3 : Heap := (compute tightEnv true 2 [2] 2 5 tight2).2

theorem tightEnv_ok : EnvOK tightEnv where
  metric := fun a b => manhattan_nonneg a b
  originDuration := by intro t; simp only [tightEnv]; split_ifs <;> simp
  destinationDuration := by intro t; simp only [tightEnv]; split_ifs <;> simp
  capacity := by intro t; simp only [tightEnv]; split_ifs <;> simp

theorem tight2_reach : Reach tightEnv tight2 := by
  have h0 : Reach tightEnv tight0 := .newRoute (v := 0) (r := 0) .empty rfl
  have h1 : Reach tightEnv tight1 := by
    refine .compute (f := true) (r := 0) (i := 0) (j := 1) (ts := [0]) (rs := [1]) h0 (by decide +kernel) (by decide) (by decide +kernel)
      (by decide +kernel) (Prod.ext (by decide +kernel) rfl)
  refine .compute (f := true) (r := 1) (i := 1) (j := 3) (ts := [1]) (rs := [2]) h1 (by decide +kernel) (by decide) (by decide +kernel)
    (by decide +kernel) (Prod.ext (by decide +kernel) rfl)

/-- C23 is false: to shorten the ride of trip 0 the pickups are postponed, but `Stop.flush` keeps the memoised
`Stop.feasible`; the returned route picks trip 1 up at 78, its latest time being 15. -/
theorem C23_returned_infeasible : ¬ ReturnedFeasible tightEnv := by
  intro hp
  have := hp tight2 tight3 2 2 5 [2] [3] tight2_reach (by decide +kernel) (by decide) (by decide +kernel) (by decide +kernel)
    (Prod.ext (by decide +kernel) rfl) 3 (by simp)
  have h2 := (this.trips 2 5 ⟨[12], some 12, [1], []⟩ ⟨[24], none, [], [1]⟩ ⟨78, 78, 78⟩ ⟨110, 110, 110⟩ 2 1 1
    (by decide +kernel) (by decide +kernel) (by decide +kernel) (by decide +kernel) (by decide +kernel) (by decide +kernel)
    (by decide) (by decide)).pickLatest
  revert h2
  decide +kernel

/-- **C23 (partial).** In every state reached by building routes, a route returned by `compute` with
`only_feasible=True` starts and ends at the vehicle's depots, in time, and every trip is served after its opening
time, within the capacity of the vehicle and within its maximum ride time. With a single trip also the maximum
duration of the route is kept. Closing times are kept by the schedule that serves the same visits as soon as possible
(without the start times chosen to shorten rides). If no trip has a maximum ride time then they are kept by the schedule
of the route too; together, all constraints of C18 hold. What is missing: closing times when rides are shortened (false by
`C23_returned_infeasible`), and the duration of all but the last candidate of a list of trips (later candidates
may move the shared depot departure). -/
theorem C23_returned_partial (hE : EnvOK E) (h h' : Heap) (r i j : Nat) (ts rs : List Nat) (hr : Reach E h)
    (hrn : r < h.core.nRoute) (hij : i < j) (hj : j < (h.core.route r).stops.length) (hts : ∀ t ∈ ts, t ∉ tripsOf h.core r)
    (e : compute E true r ts i j h = (.ok rs, h')) :
    ∀ q ∈ rs, LooselyFeasible E (E.vehicle (h'.core.route q).vehicle) (itinerary h'.core q) ∧
      (ts.length = 1 → VehicleOK E (E.vehicle (h'.core.route q).vehicle) (itinerary h'.core q)) ∧
      ((∀ t, (E.trip t).timeout = .inf) →
        (∀ (i j : Nat) (v w : Visit) (x y : Tm) (l l' : ℚ) (t : Nat),
          (itinerary h'.core q)[i]? = some v → (itinerary h'.core q)[j]? = some w →
          (routeTimetable E h'.core q)[i]? = some x → (routeTimetable E h'.core q)[j]? = some y →
          (routeLoads E h'.core q)[i]? = some l → (routeLoads E h'.core q)[j]? = some l' →
          t ∈ v.picks → t ∈ w.drops → TripOK E (E.vehicle (h'.core.route q).vehicle) t x y l l') ∧
        (ts.length = 1 → FeasibleItinerary E (E.vehicle (h'.core.route q).vehicle) (itinerary h'.core q))) := by
  intro q hq
  -- what a run in a given mode tells about the returned routes
  have run : ∀ md : Mode, (md = .exact → ∀ t, (E.trip t).timeout = .inf) →
      WellFormed h'.core q ∧ RouteVerdict E md h'.core q true := by
    intro md hx
    obtain ⟨cand, h2, e2, ba⟩ := compute_run (md := md) hE hx true (hr.inv hE hx) hrn ts hij hj hts
    rw [e] at e2
    have e3 := congrArg Prod.snd e2
    have e4 := Except.ok.inj (congrArg Prod.fst e2)
    simp only at e3
    subst e3
    rw [e4] at hq
    obtain ⟨c, hc, rfl⟩ := List.mem_map.1 hq
    obtain ⟨hc1, hc2⟩ := List.mem_filter.1 hc
    have hc2' : c.2 = true := by simpa using hc2
    have hid : c.1 ∈ cand.map Prod.fst := List.mem_map_of_mem hc1
    rw [ba.ids, List.mem_range'_1] at hid
    refine ⟨ba.inv.ok.wf c.1 (.inr ⟨hid.1, by rw [ba.nRoute]; exact hid.2⟩), ?_⟩
    have := ba.judged c hc1
    rwa [hc2'] at this
  have veh : ts.length = 1 → vehV E h'.core q = true := by
    intro hl
    obtain ⟨t, rfl⟩ := List.length_eq_one_iff.1 hl
    obtain ⟨r', b, h1, e1, o⟩ := computeOne_run (md := .sound) hE (hr.inv (md := .sound) hE fun h => nomatch h) hrn hij hj (hts t (by simp)) fun h => nomatch h
    obtain ⟨h2, e2, g, _⟩ := routeFeasible_memo hE (o.inv.ok.wf r' Plus.right) rfl (o.inv.ok.agree r' Plus.right)
    have heff : effR E h1 r' = b := by simp [effR, o.judged.memo]
    rw [heff] at e2
    have : compute E true r [t] i j h = (.ok (if b then [r'] else []), h2) := by
      unfold compute
      have hd : decide (i < j) = true := by simpa using hij
      rw [hd, Py.bind_ok (Py.assert_true h)]
      simp only [computeEach]
      rw [Py.bind_ok e1]
      have hk : keepRoute E true r' h1 = (.ok b, h2) := e2
      rw [Py.bind_ok hk]
      rfl
    rw [this] at e
    have e3 := congrArg Prod.snd e
    have e4 := Except.ok.inj (congrArg Prod.fst e)
    simp only at e3
    subst e3
    rw [← e4] at hq
    cases b with
    | false => simp at hq
    | true =>
      have : q = r' := by simpa using hq
      subst this
      rw [g.core]
      exact o.judged.vehicle rfl
  obtain ⟨hw, rv⟩ := run .sound (fun h => nomatch h)
  refine ⟨looselyFeasible_of hw (by simp) rv, fun hl => (vehV_iff hw).1 (veh hl), fun hinf => ?_⟩
  obtain ⟨_, rx⟩ := run .exact (fun _ => hinf)
  exact ⟨trips_of_tripV hw fun p hp => ((rx.trips rfl p hp).full rfl).symm, fun hl => feasible_of hw (veh hl) (rx.trips rfl)⟩

/-- The hypotheses hold for the insertion of trip 2 above, which returns a route. -/
example : EnvOK tightEnv ∧ Reach tightEnv tight2 ∧ 2 ∉ tripsOf tight2.core 2 ∧ 5 < (tight2.core.route 2).stops.length ∧
    (compute tightEnv true 2 [2] 2 5 tight2).1 = .ok [3] :=
  ⟨tightEnv_ok, tight2_reach, by decide +kernel, by decide +kernel, by decide +kernel⟩

/-- Served as soon as possible, the route returned there picks trip 1 up at 12, before it closes at 15; the price is a ride of
trip 0 that is too long. -/
example : (routeTimetable tightEnv tight3.core 3).map Tm.start = [0, 76, 78, 100, 106, 110, 114, 142] ∧
    (vehicleTimetable tightEnv (tightEnv.vehicle 0) (asSoonAsPossible (itinerary tight3.core 3))).map Tm.start =
      [0, 10, 12, 100, 106, 110, 114, 142] := by
  decide +kernel

/-- No trip of the demo problem has a maximum ride time. -/
example : (∀ t, (demoEnv.trip t).timeout = .inf) ∧ EnvOK demoEnv :=
  ⟨by intro t; simp only [demoEnv]; split <;> rfl, demoEnv_ok⟩

/-! ## C24 -/

/-- The full claim C24: in every state reached by building routes, `compute` leaves the schedule of the given
route unchanged. -/
def ComputeKeepsSchedule (E : Env) : Prop :=
  ∀ (h h' : Heap) (f : Bool) (r i j : Nat) (ts rs : List Nat), Reach E h → r < h.core.nRoute → i < j →
    j < (h.core.route r).stops.length → (∀ t ∈ ts, t ∉ tripsOf h.core r) → compute E f r ts i j h = (.ok rs, h') →
    routeTimetable E h'.core r = routeTimetable E h.core r

/-- Trips 0 and 1 open at 100 and 200. -/
def flipEnv : Env where
  metric := manhattan
  trip := fun t =>
    if t = 0 then { origin := { position := [10], earliest := 100 }, destination := { position := [11] } }
    else if t = 1 then { origin := { position := [10], earliest := 200 }, destination := { position := [12] } }
    else { origin := { position := [14] }, destination := { position := [28] } }
  vehicle := fun _ => { origin := { position := [0] }, capacity := 3 }

/-- State after creating an empty route. -/
def flip0 : Heap := (newRoute flipEnv 0 Heap.empty).2
/-- Trip 0 inserted. -/
def flip1 : Heap := (compute flipEnv true 0 [0] 0 1 flip0).2
/-- Trip 1 inserted before trip 0. -/
def flip2 : Heap := (compute flipEnv true 1 [1] 0 1 flip1).2
/-- Trip 2 inserted at the end. -/
def flip3 : Heap := (compute flipEnv true 2 [2] 4 5 flip2).2

theorem flip2_reach : Reach flipEnv flip2 := by
  have h0 : Reach flipEnv flip0 := .newRoute (v := 0) (r := 0) .empty rfl
  have h1 : Reach flipEnv flip1 := by
    refine .compute (f := true) (r := 0) (i := 0) (j := 1) (ts := [0]) (rs := [1]) h0 (by decide +kernel) (by decide) (by decide +kernel)
      (by decide +kernel) (Prod.ext (by decide +kernel) rfl)
  refine .compute (f := true) (r := 1) (i := 0) (j := 1) (ts := [1]) (rs := [2]) h1 (by decide +kernel) (by decide) (by decide +kernel)
    (by decide +kernel) (Prod.ext (by decide +kernel) rfl)

/-- C24 is false: the depot stop is shared by the given route and the candidate, and the depot adjustment of the
candidate moves its departure from 100 to 90. -/
theorem C24_schedule_changed : ¬ ComputeKeepsSchedule flipEnv := by
  intro hp
  have := hp flip2 flip3 true 2 4 5 [2] [3] flip2_reach (by decide +kernel) (by decide) (by decide +kernel) (by decide +kernel)
    (Prod.ext (by decide +kernel) rfl)
  revert this
  decide +kernel

/-- **C24 (partial).** `compute` leaves the given route's vehicle, duties, loads, and the start and the departure
at every stop after the first one unchanged. Everything (itinerary and schedule) is unchanged if nobody waits at
the second stop or the insertion is right after one of the first two stops. What is missing: the departure from
the depot, and with it the arrival at the second stop (false by `C24_schedule_changed`). -/
theorem C24_schedule_kept_partial (hE : EnvOK E) (f : Bool) (h h' : Heap) (r i j : Nat) (ts rs : List Nat)
    (hw : WellFormed h.core r) (ha : CachesAgree E h r) (hij : i < j) (hj : j < (h.core.route r).stops.length)
    (hts : ∀ t ∈ ts, t ∉ tripsOf h.core r) (e : compute E f r ts i j h = (.ok rs, h')) :
    h'.core.route r = h.core.route r ∧ duties h'.core r = duties h.core r ∧
      routeLoads E h'.core r = routeLoads E h.core r ∧
      (routeTimetable E h'.core r).tail.map (fun x => (x.start, x.dep)) =
        (routeTimetable E h.core r).tail.map (fun x => (x.start, x.dep)) ∧
      ((i ≤ 1 ∨ ∀ x ∈ (routeTimetable E h.core r)[1]?, x.start = x.arr) →
        itinerary h'.core r = itinerary h.core r ∧ routeTimetable E h'.core r = routeTimetable E h.core r) := by
  obtain ⟨cand, h2, e2, ba⟩ := compute_run (md := .any) hE (fun h => nomatch h) f (Inv.single hw ha) rfl ts hij hj hts
  rw [e] at e2
  have e3 := congrArg Prod.snd e2
  simp only at e3
  subst e3
  have hrt := ba.same.route r rfl
  have hw' : WellFormed h'.core r := ba.inv.ok.wf r (.inl rfl)
  have hlen : ∀ c : Core, (routeTimetable E c r).length = (c.route r).stops.length := fun c => routeTimetable_length
  have hll : ∀ c : Core, (routeLoads E c r).length = (c.route r).stops.length := by
    intro c; simp [routeLoads, loads_length, itinerary]
  refine ⟨hrt, ba.same.duties rfl, ?_, ?_, ?_⟩
  · refine List.ext_getElem? fun k => ?_
    cases hk : (h.core.route r).stops[k]? with
    | none =>
      rw [List.getElem?_eq_none_iff] at hk
      rw [List.getElem?_eq_none (by rw [hll, hrt]; exact hk), List.getElem?_eq_none (by rw [hll]; exact hk)]
    | some s =>
      rw [(hw.timetable_idx (E := E) hk).2.1, (hw'.timetable_idx (E := E) (by rw [hrt]; exact hk)).2.1,
        ba.same.load r rfl s (List.mem_of_getElem? hk)]
  · refine List.ext_getElem? fun k => ?_
    simp only [List.getElem?_map, List.getElem?_tail]
    cases hk : (h.core.route r).stops[k + 1]? with
    | none =>
      rw [List.getElem?_eq_none_iff] at hk
      rw [List.getElem?_eq_none (by rw [hlen, hrt]; exact hk), List.getElem?_eq_none (by rw [hlen]; exact hk)]
    | some s =>
      rw [(hw.timetable_idx (E := E) hk).1, (hw'.timetable_idx (E := E) (by rw [hrt]; exact hk)).1]
      have hs : s ∈ (h.core.route r).stops.tail := List.mem_of_getElem? (by rw [List.getElem?_tail]; exact hk)
      obtain ⟨t1, t2⟩ := ba.same.tm r rfl s hs
      simp [t1, t2]
  · intro hcond
    have sc := ba.core (by
      rcases hcond with hc | hc
      · left
        intro x hx
        obtain ⟨t, _, rfl⟩ := List.mem_map.1 hx
        exact hc
      · right
        intro s hs
        exact hc _ (hw.timetable_idx (E := E) hs).1)
    have hi := sc.itinerary (q := r) rfl
    refine ⟨hi, ?_⟩
    unfold routeTimetable
    rw [hi, hrt]

/-- The hypotheses hold for the insertion above and for one into the demo route, where nobody waits at the second
stop. -/
example : WellFormed flip2.core 2 ∧ CachesAgree flipEnv flip2 2 ∧ 2 ∉ tripsOf flip2.core 2 ∧
    (compute flipEnv true 2 [2] 4 5 flip2).1 = .ok [3] ∧
    ((routeTimetable demoEnv demoHeap.core 2)[1]?.map fun x => (x.arr, x.start)) = some (2, 2) :=
  ⟨wfB_sound (by decide +kernel), agreeB_sound (by decide +kernel), by decide +kernel, by decide +kernel, by decide +kernel⟩

end Jinete
