import Verif.Proofs.FiniteValues
import Verif.Proofs.SearchAgree
import Verif.Props.Utils

/-!
# Insertion and local search on small jobs

The routes of a planning for a job of `n` trips have at most `2 * n + 2` stops, if at most two of them are idle. So
strategies and draws that agree on such routes cannot be told apart.
-/

set_option autoImplicit false

namespace Jinete

variable {S : Settings} {md : Mode} {st : Strategy} {n : Nat}

/-- Strategies that cannot be told apart on routes with at most `n` stops. -/
def Strategy.SameUpTo (n : Nat) (st st' : Strategy) : Prop :=
  ∀ E f k r ts (h : Heap), (h.core.route r).stops.length ≤ n → st.compute E f k r ts h = st'.compute E f k r ts h

/-- No route of the container has more than `n` stops. -/
def ShortRoutes (n : Nat) (s : IterState) : Prop := ∀ e ∈ s.container, (s.heap.core.route e.2).stops.length ≤ n

theorem createSubRanking_agree (hst : Strategy.SameUpTo n st S.strategy) {r : Nat} {s : IterState}
    (hr : (s.heap.core.route r).stops.length ≤ n) : createSubRanking { S with strategy := st } r s = createSubRanking S r s := by
  unfold createSubRanking
  rw [Py.read_bind, Py.read_bind]
  refine bind_agree rfl fun ts s1 e1 => ?_
  have h1 : s1.heap = s.heap := by
    unfold ordered at e1
    cases e1
    rfl
  refine bind_agree rfl fun k s2 e2 => ?_
  have h2 : s2.heap = s.heap := by
    rw [← h1]
    cases e2
    rfl
  refine bind_agree ?_ fun _ _ _ => rfl
  show onHeap (st.compute S.env S.onlyFeasible k r (ts.take (neighborhoodSize S))) s2 = _
  unfold onHeap
  rw [hst _ _ _ _ _ _ (by rw [h2]; exact hr)]

theorem ShortRoutes.same {R : Nat → Prop} {s s' : IterState} (b : Base S md R s) (hs : ShortRoutes n s)
    (same : SameT S.env R s.heap.core s'.heap.core) (hc : s'.container = s.container) : ShortRoutes n s' := by
  intro e he
  rw [hc] at he
  rw [same.route _ (b.routes e he).1]
  exact hs e he

/-- The invariant while sub-rankings are created. -/
def Steady (S : Settings) (md : Mode) (n : Nat) (a : List Nat) (s : IterState) : Prop :=
  ∃ R, Base S md R s ∧ ShortRoutes n s ∧ s.attractive = some a

theorem Steady.create (hE : EnvOK S.env) (hF : Fair S) (hc : Clean S) (hx : md = .exact → ∀ t, (S.env.trip t).timeout = .inf)
    {R : Nat → Prop} {a : List Nat} {s : IterState} (b : Base S md R s) (hs : ShortRoutes n s) (ha : s.attractive = some a)
    {v r : Nat} (hv : (v, r) ∈ s.container) {key : IterState → Nat} :
    Meets (createSubRanking S r >>= fun l => Py.modify fun s => { s with ranking := dictSet s.ranking (key s) l }) s
      (fun _ s' => Steady S md n a s') S.strategy.Hangs := by
  refine .bind (createSubRanking_base hE hF hc hx b hv) ?_
  rintro l s1 ⟨R1, g, _⟩
  have b1 := b.grew g
  refine .modify_last ⟨R1, ⟨b1.inv, b1.routes, b1.keys, b1.trips, b1.attr⟩, hs.same b g.same g.iter.container, ?_⟩
  show s1.attractive = _
  rw [g.iter.attractive, ha]

theorem updateVehicleRanking_agree (hE : EnvOK S.env) (hF : Fair S) (hc : Clean S) (hx : md = .exact → ∀ t, (S.env.trip t).timeout = .inf)
    (hst : Strategy.SameUpTo n st S.strategy) {a : List Nat} {s : IterState} (u : Steady S md n a s) {p v : Nat}
    (hv : v ∈ s.container.map Prod.fst) :
    updateVehicleRanking { S with strategy := st } p v s = updateVehicleRanking S p v s ∧
      Meets (updateVehicleRanking S p v) s (fun _ s' => Steady S md n a s') S.strategy.Hangs := by
  obtain ⟨R, b, hs, ha⟩ := u
  obtain ⟨⟨v', r⟩, hr, rfl⟩ := List.mem_map.1 hv
  have hlook := lookup_of_mem (b.keys_nodup hc) hr
  change s.container.lookup v' = some r at hlook
  have hget : (dictGet s.container v' : IterM Nat) s = (.ok r, s) := by unfold dictGet; rw [hlook]; rfl
  have e : createSubRanking { S with strategy := st } r s = createSubRanking S r s := createSubRanking_agree hst (hs _ hr)
  have m : Meets (do
      let l ← createSubRanking S (← dictGet s.container v')
      Py.modify fun s => { s with ranking := dictSet s.ranking v' l } : IterM Unit) s (fun _ s' => Steady S md n a s') S.strategy.Hangs := by
    refine .bind (dictGet_meets hlook) ?_
    rintro _ _ ⟨rfl, rfl⟩
    exact Steady.create (key := fun _ => v') hE hF hc hx b hs ha hr
  have e' : (do
      let l ← createSubRanking { S with strategy := st } (← dictGet s.container v')
      Py.modify fun s => { s with ranking := dictSet s.ranking v' l } : IterM Unit) s = (do
      let l ← createSubRanking S (← dictGet s.container v')
      Py.modify fun s => { s with ranking := dictSet s.ranking v' l } : IterM Unit) s := by
    rw [Py.bind_ok hget, Py.bind_ok hget]
    exact bind_agree e fun _ _ _ => rfl
  unfold updateVehicleRanking
  constructor
  · rw [Py.read_bind, Py.read_bind]
    cases s.ranking.lookup v' with
    | none => exact e'
    | some l =>
      by_cases hw : v' = (s.heap.core.pt p).vehicle
      · simp only [if_pos hw]
        exact e'
      · simp only [if_neg hw]
  · refine .read ?_
    cases s.ranking.lookup v' with
    | none => exact m
    | some l =>
      by_cases hw : v' = (s.heap.core.pt p).vehicle
      · simp only [if_pos hw]
        exact m
      · simp only [if_neg hw]
        exact .modify_last ⟨R, ⟨b.inv, b.routes, b.keys, b.trips, b.attr⟩, hs, ha⟩

theorem attractive_steady (hF : Fair S) {R : Nat → Prop} {s : IterState} (b : Base S md R s) (hs : ShortRoutes n s) {X : Err → Prop} :
    Meets (attractiveRoutes S) s (fun a s' => Base S md R s' ∧ ShortRoutes n s' ∧ s'.attractive = some a) X := by
  refine (attractiveRoutes_meets hF).mono ?_
  rintro a s1 ⟨h1, h2, _⟩
  rw [h1]
  refine ⟨⟨b.inv, b.routes, b.keys, b.trips, ?_⟩, hs, rfl⟩
  intro a' e r hr
  cases e
  rcases h2 r hr with ⟨a0, e0, hr⟩ | hr
  · exact b.attr a0 e0 r hr
  · obtain ⟨e, he, rfl⟩ := List.mem_map.1 hr
    obtain ⟨k1, k2⟩ := b.routes e he
    exact ⟨k1, List.mem_map.2 ⟨e, he, k2.symm⟩⟩

theorem updateRanking_agree (hE : EnvOK S.env) (hF : Fair S) (hc : Clean S) (hx : md = .exact → ∀ t, (S.env.trip t).timeout = .inf)
    (hst : Strategy.SameUpTo n st S.strategy) {R : Nat → Prop} {s : IterState} (b : Base S md R s) (hs : ShortRoutes n s) (p : Nat) :
    updateRanking { S with strategy := st } p s = updateRanking S p s := by
  unfold updateRanking
  refine bind_agree rfl fun a s1 e1 => ?_
  obtain ⟨b1, hs1, ha1⟩ := (attractive_steady (X := fun _ => False) hF b hs).ok e1
  refine bind_agree rfl fun a' s2 e2 => ?_
  obtain ⟨hp, h2⟩ := (ordered_meets (X := fun _ => False) hF).ok e2
  refine forEach_agree (Steady S md n a) (X := S.strategy.Hangs) (by rw [h2]; exact ⟨R, ⟨b1.inv, b1.routes, b1.keys, b1.trips, b1.attr⟩, hs1, ha1⟩) ?_
  intro q s3 hq u
  have hv : (s3.heap.core.route q).vehicle ∈ s3.container.map Prod.fst := by
    obtain ⟨R3, b3, _, ha3⟩ := u
    exact (b3.attr a ha3 q (hp.mem_iff.1 hq)).2
  obtain ⟨k1, k2⟩ := updateVehicleRanking_agree hE hF hc hx hst u (p := p) hv
  constructor
  · rw [Py.read_bind, Py.read_bind]; exact k1
  · exact .read k2

theorem initializeRanking_agree (hE : EnvOK S.env) (hF : Fair S) (hc : Clean S) (hx : md = .exact → ∀ t, (S.env.trip t).timeout = .inf)
    (hst : Strategy.SameUpTo n st S.strategy) {R : Nat → Prop} {s : IterState} (b : Base S md R s) (hs : ShortRoutes n s)
    (ha : s.attractive = none) : initializeRanking { S with strategy := st } s = initializeRanking S s := by
  unfold initializeRanking
  refine bind_agree rfl fun a s1 e1 => ?_
  obtain ⟨b1, hs1, ha1⟩ := (attractive_steady (X := fun _ => False) hF b hs).ok e1
  obtain ⟨h1, h2, _⟩ := (attractiveRoutes_meets (X := fun _ => False) hF).ok e1
  refine bind_agree rfl fun a' s2 e2 => ?_
  obtain ⟨hp, h2'⟩ := (ordered_meets (X := fun _ => False) hF).ok e2
  have hin : ∀ r ∈ a', ∃ v, (v, r) ∈ s.container := by
    intro r hr
    rcases h2 r (hp.mem_iff.1 hr) with ⟨a0, h0, _⟩ | h
    · rw [ha] at h0; cases h0
    · obtain ⟨e, he, rfl⟩ := List.mem_map.1 h; exact ⟨e.1, he⟩
  refine forEach_agree (fun s' => Steady S md n a s' ∧ s'.container = s.container) (X := S.strategy.Hangs) ?_ ?_
  · rw [h2']
    exact ⟨⟨R, ⟨b1.inv, b1.routes, b1.keys, b1.trips, b1.attr⟩, hs1, ha1⟩, by show s1.container = _; rw [h1]⟩
  · rintro q s3 hq ⟨⟨R3, b3, hs3, ha3⟩, hc3⟩
    obtain ⟨v, hv⟩ := hin q hq
    rw [← hc3] at hv
    refine ⟨bind_agree (createSubRanking_agree hst (hs3 _ hv)) fun _ _ _ => rfl, ?_⟩
    refine .bind (createSubRanking_base hE hF hc hx b3 hv) ?_
    rintro l s4 ⟨R4, g, _⟩
    have b4 := b3.grew g
    refine .modify_last ⟨⟨R4, ⟨b4.inv, b4.routes, b4.keys, b4.trips, b4.attr⟩, hs3.same b3 g.same g.iter.container, ?_⟩, ?_⟩
    · show s4.attractive = _
      rw [g.iter.attractive, ha3]
    · show s4.container = _
      rw [g.iter.container, hc3]

theorem scanSub_strategy (S : Settings) (st : Strategy) : ∀ l cand : List Nat, scanSub { S with strategy := st } l cand = scanSub S l cand
  | [], _ => rfl
  | c :: l, cand => by
    show (outOfReach S cand c >>= fun stop => if stop then pure cand else scanSub { S with strategy := st } l (pushCandidate S cand c)) = _
    rw [scanSub_strategy S st l]
    rfl

theorem scanRanking_strategy (S : Settings) (st : Strategy) : ∀ (l : List (Nat × List Nat)) (cand : List Nat),
    scanRanking { S with strategy := st } l cand = scanRanking S l cand
  | [], _ => rfl
  | (_, sub) :: l, cand => by simp only [scanRanking, scanSub_strategy, scanRanking_strategy S st l]

theorem nextRanked_strategy (S : Settings) (st : Strategy) : nextRanked { S with strategy := st } = nextRanked S := by
  unfold nextRanked
  simp only [scanRanking_strategy]
  rfl

variable {h0 : Heap} {initial : Option (List Nat)} {start : List Nat}

theorem Grown.idle {E : Env} {ds ds' : List Duty} (g : Grown E ds ds') : ds'.countP Duty.idle = ds.countP Duty.idle := by
  induction g with
  | refl => rfl
  | @insert ds' t i j _ hij hj ih =>
    rw [← ih]
    have e : ds'.take (i + 1) ++ ((ds'.take j).drop (i + 1) ++ ds'.drop j) = ds' := by
      have h0 : ds'.take (i + 1) = (ds'.take j).take (i + 1) := by rw [List.take_take]; congr 1; omega
      rw [← List.append_assoc, h0, List.take_append_drop, List.take_append_drop]
    conv_rhs => rw [← e]
    simp [withTrip, List.countP_append, Duty.idle, pickDuty, dropDuty]

/-- Every initial route has at most two stops at which nothing happens. -/
def FewIdle (h : Heap) (initial : Option (List Nat)) : Prop :=
  ∀ rs, initial = some rs → ∀ r ∈ rs, (duties h.core r).countP Duty.idle ≤ 2

theorem StartDuties.idle {v : Nat} {ds : List Duty} (hi : FewIdle h0 initial) (h : StartDuties S h0 initial v ds) : ds.countP Duty.idle ≤ 2 := by
  unfold StartDuties at h
  cases initial with
  | none => rw [h]; simp [Duty.idle]
  | some rs =>
    obtain ⟨r, hr, _, rfl⟩ := h
    exact hi rs rfl r hr

/-- A route with few idle stops is short if it serves trips of a small job. -/
theorem stops_le {c : Core} {r : Nat} {job : List Nat} (hw : WellFormed c r) (hi : (duties c r).countP Duty.idle ≤ 2)
    (hj : ∀ t ∈ tripsOf c r, t ∈ job) : (c.route r).stops.length ≤ 2 * job.length + 2 := by
  have h1 := length_le_served (duties c r)
  have h2 := drops_le_picks hw
  have h3 : ((duties c r).flatMap Duty.picks).length ≤ job.length := by
    rw [← picks_duties]
    exact (hw.trips.subperm hj).length_le
  have h4 : (duties c r).length = (c.route r).stops.length := by simp [duties, itinerary]
  omega

theorem Base.short {R : Nat → Prop} {s : IterState} (b : Base S md R s)
    (hi : ∀ e ∈ s.container, (duties s.heap.core e.2).countP Duty.idle ≤ 2) : ShortRoutes (2 * S.job.length + 2) s := fun e he =>
  stops_le (b.inv.ok.wf _ (b.routes e he).1) (hi e he) fun _ ht =>
    b.trips.mem_iff.1 (List.mem_append_right _ (List.mem_flatMap.2 ⟨e, he, ht⟩))

theorem Running.short {R : Nat → Prop} {s : IterState} (hi : FewIdle h0 initial) (k : Running S md h0 initial start R s) :
    ShortRoutes (2 * S.job.length + 2) s := k.toBase.short fun e he => by
  obtain ⟨ds, h1, h2⟩ := k.grown e he
  rw [h2.idle]
  exact h1.idle hi

theorem insertionLoop_agree (hE : EnvOK S.env) (hF : Fair S) (hc : Clean S) (hn : 0 < S.randomized)
    (hx : md = .exact → ∀ t, (S.env.trip t).timeout = .inf) (hst : Strategy.SameUpTo (2 * S.job.length + 2) st S.strategy)
    (hi : FewIdle h0 initial) : ∀ (m : Nat) {R : Nat → Prop} {s : IterState}, Running S md h0 initial start R s →
    insertionLoop { S with strategy := st } (nextRanked { S with strategy := st }) (markRanked { S with strategy := st }) m s =
      insertionLoop S (nextRanked S) (markRanked S) m s := by
  intro m
  rw [nextRanked_strategy]
  induction m with
  | zero => intro R s _; rfl
  | succ m ih =>
    intro R s k
    rw [insertionLoop, insertionLoop]
    refine bind_agree rfl fun o s1 e1 => ?_
    cases o with
    | none => rfl
    | some r =>
      obtain ⟨i1, g1, cand, hr, hp⟩ := (pass_meets (X := fun _ => False) hE hF hn k).ok e1
      have k1 := k.growsV g1 i1
      rw [← i1.ranking] at hp
      obtain ⟨w, l, r0, hwl, hrl, hr0, c⟩ := k1.drawn hp hr
      show (onHeap (routeFeasible S.env r) >>= fun b => _) s1 = (onHeap (routeFeasible S.env r) >>= fun b => _) s1
      have hfeas := feasible_meets (X := fun _ => False) hE k1.inv c.mem
      rcases e2 : onHeap (routeFeasible S.env r) s1 with ⟨b | b, s2⟩
      · exact (hfeas.error e2).elim
      rw [Py.bind_ok e2, Py.bind_ok e2]
      obtain ⟨i2, g2, hf⟩ := hfeas.ok e2
      have k2 := k1.growsV g2 i2
      cases b with
      | false => simp only [Bool.false_eq_true, if_false]
      | true =>
        simp only [if_true]
        rw [← i2.ranking] at hwl
        obtain ⟨a, t, p, htp, _, u, er⟩ := setRoute_run hc k2.toRanked hwl hrl hf
        have hshort : ShortRoutes (2 * S.job.length + 2)
            { s2 with container := dictSet s2.container w r, pending := s2.pending.erase t } := by
          refine u.toBase.short fun e he => ?_
          have he : e ∈ dictSet s2.container w r := he
          show (duties s2.heap.core e.2).countP _ ≤ 2
          rcases dictSet_mem he with rfl | ⟨_, he⟩
          · rw [← i2.container] at hr0
            obtain ⟨ds, d1, d2⟩ := k2.grown _ hr0
            obtain ⟨u, i, j, _, hij, hj, hd⟩ := ((k2.sub w l r0 hwl hr0).cand r hrl).duties
            rw [hd, Grown.idle (ds := ds) (.insert d2 hij (by simpa [duties, itinerary] using hj))]
            exact d1.idle hi
          · obtain ⟨ds, d1, d2⟩ := k2.grown e he
            rw [d2.idle]
            exact d1.idle hi
        refine bind_agree ?_ fun _ s3 e3 => ?_
        · rw [er, er]
          exact updateRanking_agree hE hF hc hx hst u.toBase hshort p
        · obtain ⟨R', t, acc, k3⟩ := (k2.accept hE hF hc hx hwl hrl hf).ok e3
          exact ih k3

/-- The whole algorithm does the same with strategies that agree on short routes. -/
theorem insertionAlgorithm_agree (hE : EnvOK S.env) (hF : Fair S) (hc : Clean S) (hn : 0 < S.randomized)
    (hx : md = .exact → ∀ t, (S.env.trip t).timeout = .inf) (hs : Starts S md h0 initial)
    (hst : Strategy.SameUpTo (2 * S.job.length + 2) st S.strategy) (hi : FewIdle h0 initial) (m : Nat) :
    insertionAlgorithm { S with strategy := st } initial m (.initial h0) = insertionAlgorithm S initial m (.initial h0) := by
  unfold insertionAlgorithm
  refine bind_agree ?_ fun _ s e => ?_
  · unfold rankingInit
    refine bind_agree rfl fun _ s e => ?_
    obtain ⟨R, b, ha, _, _, hd, _⟩ := (iteratorInit_meets (X := fun _ => False) hF hc hs).ok e
    exact initializeRanking_agree hE hF hc hx hst b (b.short fun e he => (hd e he).idle hi) ha
  · obtain ⟨start, R, k⟩ := (rankingInit_meets hE hF hc hx hs).ok e
    exact bind_agree (insertionLoop_agree hE hF hc hn hx hst hi m k) fun _ _ _ => rfl

end Jinete
