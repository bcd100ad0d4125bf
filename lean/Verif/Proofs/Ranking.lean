import Verif.Proofs.Meets
import Verif.Proofs.Batch
import Verif.Proofs.Values
import Verif.Proofs.Choose
import Verif.Proofs.Reach
import Verif.Spec.Insertion
import Verif.Props.Utils

/-!
# Sub-rankings
-/

set_option autoImplicit false

namespace Jinete

variable {E : Env} {S : Settings} {md : Mode}

/-- What a strategy may raise: the sampling loop may still be running. -/
def Strategy.Hangs (st : Strategy) (e : Err) : Prop := e = .outOfFuel ∧ ¬ st.Ends

/-- What a strategy computes: a batch of insertions at valid pairs of indices. -/
theorem Strategy.compute_meets {st : Strategy} (hE : EnvOK E) (hx : md = .exact → ∀ t, (E.trip t).timeout = .inf)
    (hrnd : ∀ count fuel rnd, st = .sampling count fuel rnd → ∀ m, RandInt (rnd m)) (f : Bool) (k : Nat) {r : Nat}
    {R : Nat → Prop} {h : Heap} (inv : Inv E md R h) (hr : R r) (ts : List Nat) (hts : ∀ t ∈ ts, t ∉ tripsOf h.core r) :
    Meets (st.compute E f k r ts) h (fun rs h' => ∃ ps cand, rs = (cand.filter fun c => !f || c.2).map Prod.fst ∧
      Batch E md R h h' r (ps.flatMap fun x => ts.map fun t => (t, x.1, x.2)) cand ∧
      (∀ x ∈ ps, ValidPair (h.core.route r).stops.length x) ∧
      (st = .intensive → ps = combinations2 (h.core.route r).stops.length) ∧ (st.Tries → ps ≠ [])) st.Hangs := by
  have hlen := (inv.ok.wf r hr).length
  have hrs : routeStops r h = (.ok (h.core.route r).stops, h) := by simp [routeStops]
  cases st with
  | intensive =>
    obtain ⟨cand, h', e, ba⟩ := computePairs_run hE hx f inv hr ts (combinations2 (h.core.route r).stops.length)
      (fun x hx => (combinations2_mem _ x).1 hx) hts
    exact .of_ok (by simp only [Strategy.compute, computeIntensive]; rw [Py.bind_ok hrs]; exact e)
      ⟨_, cand, rfl, ba, fun x hx => (combinations2_mem _ x).1 hx, fun _ => rfl,
        fun _ => List.ne_nil_of_mem ((combinations2_mem _ (0, 1)).2 ⟨Nat.zero_lt_one, hlen⟩)⟩
  | tail =>
    obtain ⟨cand, h', e, ba⟩ := compute_run hE hx f (i := (h.core.route r).stops.length - 2)
      (j := (h.core.route r).stops.length - 1) inv hr ts (by omega) (by omega) hts
    refine .of_ok (by simp only [Strategy.compute, computeTail]; rw [Py.bind_ok hrs]; exact e)
      ⟨[((h.core.route r).stops.length - 2, (h.core.route r).stops.length - 1)], cand, rfl, by simpa using ba, ?_,
        (fun h => nomatch h), fun _ => by simp⟩
    intro x hx
    have : x = ((h.core.route r).stops.length - 2, (h.core.route r).stops.length - 1) := by simpa using hx
    subst this
    exact ⟨by show _ - 2 < _ - 1; omega, by show _ - 1 < _; omega⟩
  | sampling count fuel rnd =>
    have hc := (C25_sample_index_pairs (h.core.route r).stops.length count fuel (rnd k) (hrnd count fuel rnd rfl k) hlen).1
    cases hp : sampleIndexPairs (h.core.route r).stops.length count (rnd k) fuel with
    | none =>
      refine .of_error (x := .outOfFuel) (s' := h) ?_ ⟨rfl, fun he => by
        have := he count fuel rnd rfl k _ hlen
        rw [hp] at this
        cases this⟩
      simp only [Strategy.compute, computeSampling]
      rw [Py.bind_ok hrs, hp]; rfl
    | some ps =>
      obtain ⟨_, hv, hcard⟩ := hc ps hp
      obtain ⟨cand, h', e, ba⟩ := computePairs_run hE hx f inv hr ts ps (fun x hx => hv x hx) hts
      refine .of_ok ?_ ⟨ps, cand, rfl, ba, hv, (fun h => nomatch h), fun ht => ?_⟩
      · simp only [Strategy.compute, computeSampling]
        rw [Py.bind_ok hrs, hp]; exact e
      · rintro rfl
        have h1 := ht count fuel rnd rfl
        have h2 := Nat.choose_pos hlen
        rw [List.length_nil] at hcard
        omega

theorem Inv.sound {R : Nat → Prop} {h : Heap} (inv : Inv E md R h) {q : Nat} (hq : R q) : Sound E h q :=
  ⟨inv.ok.wf q hq, (cachesAgree_iff (inv.ok.wf q hq).toChained).2 (inv.ok.agree q hq)⟩

/-- The score of a route as the code computes it. -/
def scoreNow (S : Settings) (h : Heap) (q : Nat) : Score := scoreOf S.env h.core S.criterion q (effR S.env h q)

/-- What is left alone: routes of the family up to requested starts, those of vehicle `w` entirely, and memoised
verdicts. -/
structure Frame (E : Env) (R : Nat → Prop) (w : Nat) (h h' : Heap) : Prop where
  same : SameT E R h.core h'.core
  apart : SameCore (fun q => R q ∧ (h.core.route q).vehicle = w) h.core h'.core
  kept : ∀ q b, R q → h.rfeas q = some b → h'.rfeas q = some b

theorem Frame.refl {R : Nat → Prop} {w : Nat} (h : Heap) : Frame E R w h h :=
  ⟨SameT.refl _, SameCore.refl _, fun _ _ _ h => h⟩

theorem Frame.of_growsV {R : Nat → Prop} {w : Nat} {h h' : Heap} (g : GrowsV E h h') : Frame E R w h h' :=
  ⟨by rw [g.core]; exact SameT.refl _, by rw [g.core]; exact SameCore.refl _, fun _ _ _ hb => g.kept hb⟩

theorem Frame.trans {R R' : Nat → Prop} {w : Nat} {h h' h'' : Heap} (a : Frame E R w h h') (b : Frame E R' w h' h'')
    (hs : ∀ q, R q → R' q) : Frame E R w h h'' where
  same := a.same.trans (b.same.subset hs)
  apart := a.apart.trans (b.apart.subset fun q hq => ⟨hs q hq.1, by rw [a.same.route q hq.1]; exact hq.2⟩)
  kept q c hq hb := b.kept q c (hs q hq) (a.kept q c hq hb)

/-- A candidate of a sub-ranking: the current route `r0` of vehicle `w` with one of the trips `P` inserted. -/
structure Cand (S : Settings) (R : Nat → Prop) (h : Heap) (w r0 : Nat) (P : Nat → Prop) (q : Nat) : Prop where
  mem : R q
  vehicle : (h.core.route q).vehicle = w
  duties : ∃ t i j, P t ∧ i < j ∧ j < (h.core.route r0).stops.length ∧
    duties h.core q = withTrip S.env t i j (duties h.core r0)
  owner : ∀ p ∈ routePlannedTrips h.core q, (h.core.pt p).trip ∉ tripsOf h.core r0 → (h.core.pt p).vehicle = w
  memo : ∃ b, h.rfeas q = some b ∧ (S.onlyFeasible = true → b = true)

/-- Every pending trip is tried everywhere. -/
def Exhaustive (S : Settings) : Prop := S.strategy = .intensive ∧ S.job.length ≤ neighborhoodSize S

/-- Every pending trip is tried. -/
def TriesAll (S : Settings) : Prop := S.strategy.Tries ∧ S.job.length ≤ neighborhoodSize S

/-- A sub-ranking for vehicle `w`, whose route is `r0`, and the trips `P`. For a route with nothing between its ends the verdicts are
those of the constraints. -/
structure Sub (S : Settings) (md : Mode) (R : Nat → Prop) (h : Heap) (w r0 : Nat) (P : Nat → Prop) (l : List Nat) : Prop where
  cand : ∀ q ∈ l, Cand S R h w r0 P q
  nodup : l.Nodup
  sorted : l.Pairwise fun a b => Before S.criterion.direction (scoreNow S h a) (scoreNow S h b)
  cover : Exhaustive S → ∀ t, P t → ∀ i j, i < j → j < (h.core.route r0).stops.length →
    ∃ q, R q ∧ (h.core.route q).vehicle = w ∧ duties h.core q = withTrip S.env t i j (duties h.core r0) ∧
      (q ∈ l ∨ h.rfeas q = some false)
  alone : md = .exact → TriesAll S → (h.core.route r0).stops.length = 2 → ∀ t, P t → ∃ q b, R q ∧ (q ∈ l ∨ h.rfeas q = some false) ∧
    (h.core.route q).vehicle = w ∧ duties h.core q = withTrip S.env t 0 1 (duties h.core r0) ∧
    h.rfeas q = some b ∧ (b = true ↔ FeasibleItinerary S.env (S.env.vehicle w)
      (postponed S.env (S.env.vehicle w) (withVisits S.env t 0 1 (itinerary h.core r0))))

theorem scoreNow_frame {R : Nat → Prop} {w : Nat} {h h' : Heap} (fr : Frame S.env R w h h') {q : Nat} (hq : R q)
    (hv : (h.core.route q).vehicle = w) {b : Bool} (hb : h.rfeas q = some b) : scoreNow S h' q = scoreNow S h q := by
  have h1 : effR S.env h' q = b := by simp [effR, fr.kept q b hq hb]
  have h2 : effR S.env h q = b := by simp [effR, hb]
  unfold scoreNow scoreOf
  rw [h1, h2, fr.same.route q hq, fr.apart.itinerary (R := fun q => R q ∧ (h.core.route q).vehicle = w) ⟨hq, hv⟩]

theorem SameT.planned_pt {R : Nat → Prop} {c c' : Core} (a : SameT E R c c') {q p : Nat} (hq : R q)
    (hp : p ∈ routePlannedTrips c q) : c'.pt p = c.pt p := by
  obtain ⟨s, hs, hps⟩ := List.mem_flatMap.1 hp
  exact a.pt q hq s hs p (List.mem_append_left _ hps)

theorem Cand.step {R R' : Nat → Prop} {h h' : Heap} {w r0 q : Nat} {P : Nat → Prop} (c : Cand S R h w r0 P q)
    (fr : Frame S.env R w h h') (hR : ∀ q, R q → R' q) (h0 : R r0) : Cand S R' h' w r0 P q where
  mem := hR q c.mem
  vehicle := by rw [fr.same.route q c.mem]; exact c.vehicle
  duties := by
    obtain ⟨t, i, j, a1, a2, a3, a4⟩ := c.duties
    exact ⟨t, i, j, a1, a2, by rw [fr.same.route r0 h0]; exact a3, by rw [fr.same.duties c.mem, fr.same.duties h0, a4]⟩
  owner p hp ht := by
    rw [fr.same.planned c.mem] at hp
    rw [fr.same.planned_pt c.mem hp] at ht ⊢
    rw [fr.same.tripsOf h0] at ht
    exact c.owner p hp ht
  memo := by
    obtain ⟨b, hb, hf⟩ := c.memo
    exact ⟨b, fr.kept q b c.mem hb, hf⟩

theorem Sub.step {R R' : Nat → Prop} {h h' : Heap} {w r0 : Nat} {P : Nat → Prop} {l : List Nat} (a : Sub S md R h w r0 P l)
    (fr : Frame S.env R w h h') (hR : ∀ q, R q → R' q) (h0 : R r0 ∧ (h.core.route r0).vehicle = w) : Sub S md R' h' w r0 P l where
  cand q hq := (a.cand q hq).step fr hR h0.1
  nodup := a.nodup
  sorted := by
    refine a.sorted.imp_of_mem ?_
    intro x y hx hy hxy
    obtain ⟨bx, hbx, _⟩ := (a.cand x hx).memo
    obtain ⟨by', hby, _⟩ := (a.cand y hy).memo
    rw [scoreNow_frame fr (a.cand x hx).mem (a.cand x hx).vehicle hbx,
      scoreNow_frame fr (a.cand y hy).mem (a.cand y hy).vehicle hby]
    exact hxy
  cover he t ht i j hij hj := by
    rw [fr.same.route r0 h0.1] at hj
    obtain ⟨q, hq, hv, hd, hc⟩ := a.cover he t ht i j hij hj
    refine ⟨q, hR q hq, by rw [fr.same.route q hq]; exact hv, by rw [fr.same.duties hq, fr.same.duties h0.1, hd], ?_⟩
    rcases hc with hc | hc
    · exact .inl hc
    · exact .inr (fr.kept q false hq hc)
  alone hm he hl t ht := by
    rw [fr.same.route r0 h0.1] at hl
    obtain ⟨q, b, hq, hc, hv, hd, hb, hiff⟩ := a.alone hm he hl t ht
    refine ⟨q, b, hR q hq, hc.imp id (fr.kept q false hq), by rw [fr.same.route q hq]; exact hv,
      by rw [fr.same.duties hq, fr.same.duties h0.1, hd], fr.kept q b hq hb, ?_⟩
    rw [fr.apart.itinerary (R := fun q => R q ∧ (h.core.route q).vehicle = w) h0]
    exact hiff

theorem tripsOf_withTrip {E : Env} {c : Core} {q r0 t i j : Nat} (hij : i < j)
    (hd : duties c q = withTrip E t i j (duties c r0)) : (tripsOf c q).Perm (t :: tripsOf c r0) := by
  rw [picks_duties, picks_duties, hd]
  exact withTrip_picks E hij

/-- Dropping the candidates that serve a trip. -/
theorem Sub.filter {R : Nat → Prop} {h : Heap} {w r0 t : Nat} {P P' : Nat → Prop} {l : List Nat} (a : Sub S md R h w r0 P l)
    (hP : ∀ x, P' x ↔ P x ∧ x ≠ t) (ht : t ∉ tripsOf h.core r0) :
    Sub S md R h w r0 P' (l.filter fun q => t ∉ routeTrips h.core q) where
  cand q hq := by
    obtain ⟨hq, hqt⟩ := List.mem_filter.1 hq
    have c := a.cand q hq
    obtain ⟨u, i, j, a1, a2, a3, a4⟩ := c.duties
    refine ⟨c.mem, c.vehicle, ⟨u, i, j, (hP u).2 ⟨a1, ?_⟩, a2, a3, a4⟩, c.owner, c.memo⟩
    rintro rfl
    have : u ∈ tripsOf h.core q := (tripsOf_withTrip a2 a4).mem_iff.2 (by simp)
    rw [tripsOf_eq] at this
    simp [this] at hqt
  nodup := a.nodup.filter _
  sorted := a.sorted.filter _
  cover he u hu i j hij hj := by
    obtain ⟨hu, hne⟩ := (hP u).1 hu
    obtain ⟨q, hq, hv, hd, hc⟩ := a.cover he u hu i j hij hj
    refine ⟨q, hq, hv, hd, ?_⟩
    rcases hc with hc | hc
    · left
      refine List.mem_filter.2 ⟨hc, ?_⟩
      have : t ∉ routeTrips h.core q := by
        rw [← tripsOf_eq, (tripsOf_withTrip hij hd).mem_iff]
        simp only [List.mem_cons, not_or]
        exact ⟨Ne.symm hne, ht⟩
      simpa using this
    · exact .inr hc
  alone hm he hl u hu := by
    obtain ⟨hu, hne⟩ := (hP u).1 hu
    obtain ⟨q, b, hq, hc, hv, hd, hb, hiff⟩ := a.alone hm he hl u hu
    refine ⟨q, b, hq, hc.imp (fun hc => List.mem_filter.2 ⟨hc, ?_⟩) id, hv, hd, hb, hiff⟩
    have : t ∉ routeTrips h.core q := by
      rw [← tripsOf_eq, (tripsOf_withTrip Nat.zero_lt_one hd).mem_iff]
      simp only [List.mem_cons, not_or]
      exact ⟨Ne.symm hne, ht⟩
    simpa using this

theorem Sub.congr {R : Nat → Prop} {h : Heap} {w r0 : Nat} {P P' : Nat → Prop} {l : List Nat} (a : Sub S md R h w r0 P l)
    (hP : ∀ x, P' x ↔ P x) : Sub S md R h w r0 P' l := by
  have : P' = P := funext fun x => propext (hP x)
  rw [this]; exact a

/-- Sorting routes by the criterion. -/
theorem sorted_meets (hE : EnvOK S.env) {h : Heap} {l : List Nat} (hs : ∀ r ∈ l, Sound S.env h r) {X : Err → Prop} :
    Meets (S.criterion.sorted S.env l) h (fun s h' => GrowsV S.env h h' ∧ s.Perm l ∧
      s.Pairwise fun a b => Before S.criterion.direction (scoreNow S h a) (scoreNow S h b)) X := by
  obtain ⟨h', e, g⟩ := scoring_keyed hE S.criterion hs
  have hst := sortKeyed_spec S.criterion.direction (l.map fun r => (r, scoreOf S.env h.core S.criterion r (effR S.env h r)))
  refine .of_ok (Py.bind_ok e) ⟨g, ?_, ?_⟩
  · have := hst.perm.map Prod.fst
    rw [List.map_map] at this
    simpa [Direction.sorted, Function.comp_def] using this
  · unfold Direction.sorted
    rw [List.pairwise_map]
    refine hst.ordered.imp_of_mem ?_
    intro x y hx hy hxy
    obtain ⟨a, _, rfl⟩ := List.mem_map.1 (hst.perm.mem_iff.1 hx)
    obtain ⟨b, _, rfl⟩ := List.mem_map.1 (hst.perm.mem_iff.1 hy)
    exact hxy

/-- Everything but the heap and the clock is the same. -/
def SameIter (s s' : IterState) : Prop := s' = { s with heap := s'.heap, clock := s'.clock }

theorem Fair.randInt (hF : Fair S) : ∀ count fuel rnd, S.strategy = .sampling count fuel rnd → ∀ m, RandInt (rnd m) :=
  fun count fuel rnd h m k lo hi hl => hF.rnd count fuel rnd h m k lo hi hl

theorem Batch.frame {R : Nat → Prop} {h h' : Heap} {r : Nat} {l : List (Nat × Nat × Nat)} {cand : List (Nat × Bool)}
    (ba : Batch E md R h h' r l cand) {w : Nat} (hw : w ≠ (h.core.route r).vehicle) : Frame E R w h h' :=
  ⟨ba.same, ba.apart.subset fun q hq => ⟨hq.1, by rw [hq.2]; exact hw⟩, ba.kept⟩

/-- Creating the sub-ranking of a route. -/
theorem createSubRanking_meets (hE : EnvOK S.env) (hF : Fair S) (hx : md = .exact → ∀ t, (S.env.trip t).timeout = .inf)
    {R : Nat → Prop} {s : IterState} {r : Nat} (inv : Inv S.env md R s.heap) (hr : R r)
    (hts : ∀ t ∈ s.pending, t ∉ tripsOf s.heap.core r) (hlen : s.pending.length ≤ S.job.length) :
    Meets (createSubRanking S r) s (fun l s' => SameIter s s' ∧ ∃ R', (∀ q, R q → R' q) ∧ Inv S.env md R' s'.heap ∧
      SameT S.env R s.heap.core s'.heap.core ∧ (∀ q b, R q → s.heap.rfeas q = some b → s'.heap.rfeas q = some b) ∧
      (∀ w, w ≠ (s.heap.core.route r).vehicle → Frame S.env R w s.heap s'.heap) ∧
      Sub S md R' s'.heap (s.heap.core.route r).vehicle r (· ∈ s.pending) l ∧
      ((s.heap.core.route r).stops.length = 2 → SameCore R s.heap.core s'.heap.core)) S.strategy.Hangs := by
  unfold createSubRanking ordered
  refine .read ?_
  refine .bind (Q := fun ts s1 => s1 = { s with clock := s1.clock } ∧ ts.Perm s.pending) ?_ ?_
  · exact .bind (Q := fun k s1 => s1 = { s with clock := s1.clock }) (.tick rfl) fun k s1 h1 => .pure ⟨h1, hF.order k _⟩
  intro ts s1 ⟨h1, hts'⟩
  refine .bind (Q := fun k s2 => s2 = { s with clock := s2.clock }) (.tick (by rw [h1])) ?_
  intro k s2 h2
  have hh2 : s2.heap = s.heap := by rw [h2]
  have ht2 : ∀ t ∈ ts.take (neighborhoodSize S), t ∉ tripsOf s2.heap.core r := by
    intro t ht
    rw [hh2]
    exact hts t (hts'.mem_iff.1 (List.mem_of_mem_take ht))
  have inv2 : Inv S.env md R s2.heap := by rw [hh2]; exact inv
  have hcm := Strategy.compute_meets hE hx hF.randInt S.onlyFeasible k inv2 hr (ts.take (neighborhoodSize S)) ht2
  refine .bind (Q := fun raw s3 => ∃ h3, s3 = { s2 with heap := h3 } ∧ ∃ ps cand,
      raw = (cand.filter fun c => !S.onlyFeasible || c.2).map Prod.fst ∧
      Batch S.env md R s2.heap h3 r (ps.flatMap fun x => (ts.take (neighborhoodSize S)).map fun t => (t, x.1, x.2)) cand ∧
      (∀ x ∈ ps, ValidPair (s2.heap.core.route r).stops.length x) ∧
      (S.strategy = .intensive → ps = combinations2 (s2.heap.core.route r).stops.length) ∧ (S.strategy.Tries → ps ≠ []))
    (.onHeap (hcm.mono fun raw h3 q => ⟨h3, rfl, q⟩)) ?_
  rintro raw s3 ⟨h3, rfl, ps, cand, hraw, ba, hps, hint, htry⟩
  rw [hh2] at ba hps hint
  have hmem : ∀ q ∈ raw, ∃ c ∈ cand, c.1 = q ∧ (S.onlyFeasible = true → c.2 = true) := by
    intro q hq
    rw [hraw] at hq
    obtain ⟨c, hc, rfl⟩ := List.mem_map.1 hq
    obtain ⟨hc, hf⟩ := List.mem_filter.1 hc
    exact ⟨c, hc, rfl, fun ho => by simpa [ho] using hf⟩
  have hnew : ∀ c ∈ cand, Upto R s.heap h3 c.1 := by
    intro c hc
    right
    have : c.1 ∈ cand.map Prod.fst := List.mem_map.2 ⟨c, hc, rfl⟩
    rw [ba.ids, List.mem_range'] at this
    obtain ⟨i, hi, e⟩ := this
    rw [ba.nRoute, e]
    constructor <;> omega
  have hd0 : duties h3.core r = duties s.heap.core r := ba.same.duties hr
  have hr0 : h3.core.route r = s.heap.core.route r := ba.same.route r hr
  have hsound : ∀ q ∈ raw, Sound S.env h3 q := by
    intro q hq
    obtain ⟨c, hc, rfl, _⟩ := hmem q hq
    exact ba.inv.sound (hnew c hc)
  refine (Meets.onHeap (s := { s2 with heap := h3 }) (Q := fun l s' => ∃ h4, s' = { s2 with heap := h4 } ∧
    GrowsV S.env h3 h4 ∧ l.Perm raw ∧
    l.Pairwise fun a b => Before S.criterion.direction (scoreNow S h3 a) (scoreNow S h3 b))
    ((sorted_meets hE hsound).mono fun l h4 q => ⟨h4, rfl, q⟩)).mono ?_
  rintro l _ ⟨h4, rfl, g, hl, hso⟩
  have hfirst : (s.heap.core.route r).stops.length = 2 →
      ∀ x ∈ ps.flatMap fun x => (ts.take (neighborhoodSize S)).map fun t => (t, x.1, x.2), x.2.1 ≤ 1 := by
    intro h2 x hx
    obtain ⟨y, hy, hx⟩ := List.mem_flatMap.1 hx
    obtain ⟨t, _, rfl⟩ := List.mem_map.1 hx
    obtain ⟨v1, v2⟩ := hps y hy
    show y.1 ≤ 1
    omega
  have sub3 : Sub S md (Upto R s.heap h3) h3 (s.heap.core.route r).vehicle r (· ∈ s.pending) l := by
    constructor
    · intro q hq
      obtain ⟨c, hc, rfl, hf⟩ := hmem q (hl.mem_iff.1 hq)
      refine ⟨hnew c hc, ba.vehicle c hc, ?_, ?_, ⟨c.2, ba.memo c hc, hf⟩⟩
      · have : duties h3.core c.1 ∈ cand.map (fun c => duties h3.core c.1) := List.mem_map.2 ⟨c, hc, rfl⟩
        rw [ba.duties] at this
        obtain ⟨x, hx, e⟩ := List.mem_map.1 this
        obtain ⟨y, hy, hx⟩ := List.mem_flatMap.1 hx
        obtain ⟨t, ht, rfl⟩ := List.mem_map.1 hx
        obtain ⟨v1, v2⟩ := hps y hy
        exact ⟨t, y.1, y.2, hts'.mem_iff.1 (List.mem_of_mem_take ht), v1, by rw [hr0]; exact v2, by rw [hd0]; exact e.symm⟩
      · intro p hp ht
        rw [ba.same.tripsOf hr] at ht
        exact ba.owner c hc p hp ht
    · refine hl.nodup_iff.2 ?_
      rw [hraw]
      have hs : ((cand.filter fun c => !S.onlyFeasible || c.2).map Prod.fst).Sublist (cand.map Prod.fst) :=
        List.filter_sublist.map _
      refine hs.nodup ?_
      rw [ba.ids]
      exact List.nodup_range'
    · exact hso
    · rintro ⟨hst, hsz⟩ t ht i j hij hj
      rw [hr0] at hj
      have htake : ts.take (neighborhoodSize S) = ts := List.take_of_length_le (by rw [hts'.length_eq]; omega)
      have hin : (t, i, j) ∈ ps.flatMap fun x => (ts.take (neighborhoodSize S)).map fun t => (t, x.1, x.2) := by
        rw [htake, hint hst]
        exact List.mem_flatMap.2 ⟨(i, j), (combinations2_mem _ _).2 ⟨hij, hj⟩,
          List.mem_map.2 ⟨t, hts'.mem_iff.2 ht, rfl⟩⟩
      have hm := List.mem_map_of_mem (f := fun x : Nat × Nat × Nat =>
        withTrip S.env x.1 x.2.1 x.2.2 (duties s.heap.core r)) hin
      rw [← ba.duties] at hm
      obtain ⟨c, hc, e⟩ := List.mem_map.1 hm
      refine ⟨c.1, hnew c hc, ba.vehicle c hc, by rw [hd0]; exact e, ?_⟩
      cases hb : c.2 with
      | false => right; rw [ba.memo c hc, hb]
      | true =>
        left
        rw [hl.mem_iff, hraw]
        exact List.mem_map.2 ⟨c, List.mem_filter.2 ⟨hc, by simp [hb]⟩, rfl⟩
    · rintro hm ⟨hst, hsz⟩ h2 t ht
      rw [hr0] at h2
      have htake : ts.take (neighborhoodSize S) = ts := List.take_of_length_le (by rw [hts'.length_eq]; omega)
      have hin : (t, 0, 1) ∈ ps.flatMap fun x => (ts.take (neighborhoodSize S)).map fun t => (t, x.1, x.2) := by
        obtain ⟨⟨i, j⟩, hy⟩ := List.exists_mem_of_ne_nil _ (htry hst)
        obtain ⟨v1, v2⟩ := hps _ hy
        change i < j at v1
        change j < _ at v2
        obtain rfl : i = 0 := by omega
        obtain rfl : j = 1 := by omega
        rw [htake]
        exact List.mem_flatMap.2 ⟨(0, 1), hy, List.mem_map.2 ⟨t, hts'.mem_iff.2 ht, rfl⟩⟩
      obtain ⟨k, hk⟩ := List.getElem?_of_mem hin
      have hlen : cand.length = (ps.flatMap fun x => (ts.take (neighborhoodSize S)).map fun t => (t, x.1, x.2)).length := by
        have := congrArg List.length ba.ids
        simpa using this
      have hkl : k < cand.length := by rw [hlen]; exact (List.getElem?_eq_some_iff.1 hk).1
      have hck : cand[k]? = some cand[k] := List.getElem?_eq_getElem hkl
      have hc : cand[k] ∈ cand := List.getElem_mem _
      have hd := congrArg (fun l => l[k]?) ba.duties
      simp only [List.getElem?_map, hk, hck, Option.map_some, Option.some.injEq] at hd
      refine ⟨cand[k].1, cand[k].2, hnew _ hc, ?_, ba.vehicle _ hc, by rw [hd0]; exact hd, ba.memo _ hc, ?_⟩
      · cases hb : cand[k].2 with
        | false => right; rw [ba.memo _ hc, hb]
        | true =>
          left
          rw [hl.mem_iff, hraw]
          exact List.mem_map.2 ⟨cand[k], List.mem_filter.2 ⟨hc, by simp [hb]⟩, rfl⟩
      · have := ba.verdict hm (.inr (.inl (hfirst h2))) (cand[k], (t, 0, 1))
          (List.mem_of_getElem? (i := k) (by rw [List.getElem?_zip_eq_some]; exact ⟨hck, hk⟩))
        rw [(ba.core (.inl (hfirst h2))).itinerary hr]
        exact this
  refine ⟨by unfold SameIter; rw [h2], Upto R s.heap h3, fun q hq => .inl hq, ba.inv.growsV g, ?_, ?_, ?_, ?_, ?_⟩
  · exact ba.same.trans (Frame.of_growsV (w := 0) g).same
  · intro q b hq hb
    exact g.kept (ba.kept q b hq hb)
  · intro w hw
    exact (ba.frame hw).trans (R' := R) (Frame.of_growsV g) (fun _ h => h)
  · exact sub3.step (Frame.of_growsV g) (fun _ h => h) ⟨.inl hr, by rw [hr0]⟩
  · intro h2
    show SameCore R s.heap.core h4.core
    rw [g.core]
    exact ba.core (.inl (hfirst h2))

end Jinete
