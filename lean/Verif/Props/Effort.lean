import Verif.Props.Whole

/-!
# More effort never gives a worse result (C130)

The runs compared start in the same state and draw the same seeds; they differ in the number of episodes
(jinete/algorithms/metaheuristics/iterative.py:79-85, grasp.py:79-106) or in the number of rounds without improvement after
which a local search stops (jinete/algorithms/heuristics/local_search/algorithm.py:58-73). The shorter run is a prefix of the
longer one.
-/

set_option autoImplicit false

namespace Jinete

section generic

variable {σ R : Type} {value : R → Py σ (List ℚ)} (V : Valued σ R value)

/-- The episodes of a longer run after those of a shorter one. -/
theorem iterativeLoop_split {run : Nat → Option R → Py σ R} {restart : Bool} {seeds : Nat → Nat} (m : Nat) :
    ∀ (n i : Nat) (best : Option R), iterativeLoop run value restart seeds (n + m) i best =
      (iterativeLoop run value restart seeds n i best >>= iterativeLoop run value restart seeds m (i + n)) := by
  intro n
  induction n with
  | zero =>
    intro i best
    rw [Nat.zero_add, Nat.add_zero]
    rfl
  | succ n ih =>
    intro i best
    funext s
    rw [Nat.succ_add, iterativeLoop, iterativeLoop]
    simp only [Py.bind_run]
    rcases run (seeds i) (if restart then none else best) s with ⟨e | c, s1⟩
    · rfl
    · simp only
      rcases bestResult value best c s1 with ⟨e | b, s2⟩
      · rfl
      · simp only [ih (i + 1) (some b), Py.bind_run, show i + 1 + n = i + (n + 1) by omega]

/-- From a result held, the loop ends with one that is no worse. -/
theorem iterativeLoop_notWorse {V : Valued σ R value} {run : Nat → Option R → Py σ R} {restart : Bool} {seeds : Nat → Nat}
    (hrun : ∀ seed initial s x s', V.Good s → (∀ r, initial = some r → V.Alive s r) → run seed initial s = (.ok x, s') →
      V.Follows s s' ∧ V.Alive s' x) {out : Option R} {s' : σ} :
    ∀ (n i : Nat) (b : R) (s : σ), V.Good s → V.Alive s b → iterativeLoop run value restart seeds n i (some b) s = (.ok out, s') →
      ∃ y, out = some y ∧ V.Follows s s' ∧ V.Alive s' y ∧ V.val s b ≤ V.val s' y := by
  intro n
  induction n with
  | zero =>
    intro i b s hg hb h
    simp only [iterativeLoop, Py.pure_run, Prod.mk.injEq, Except.ok.injEq] at h
    obtain ⟨rfl, rfl⟩ := h
    exact ⟨b, rfl, .refl V hg, hb, le_rfl⟩
  | succ n ih =>
    intro i b s hg hb h
    rw [iterativeLoop, Py.bind_run] at h
    rcases hr : run (seeds i) (if restart then none else some b) s with ⟨e | c, s1⟩
    · rw [hr] at h; simp at h
    · rw [hr] at h
      simp only at h
      obtain ⟨f1, hc⟩ := hrun (seeds i) _ s c s1 hg (by
        intro r e
        split at e
        · cases e
        · cases e; exact hb) hr
      obtain ⟨s2, e2, f2⟩ := bestResult_two f1.1 (f1.2 b hb).1 hc
      rw [Py.bind_ok e2] at h
      have hb' : V.Alive s2 (if V.val s1 b < V.val s1 c then c else b) ∧
          V.val s b ≤ V.val s2 (if V.val s1 b < V.val s1 c then c else b) := by
        split
        · next hlt =>
          refine ⟨(f2.2 c hc).1, ?_⟩
          rw [(f2.2 c hc).2, ← (f1.2 b hb).2]
          exact le_of_lt hlt
        · exact ⟨(f2.2 b (f1.2 b hb).1).1, by rw [(f2.2 b (f1.2 b hb).1).2, (f1.2 b hb).2]⟩
      obtain ⟨y, e, f3, hy, hle⟩ := ih (i + 1) _ s2 f2.1 hb'.1 h
      exact ⟨y, e, (f1.trans f2).trans f3, hy, le_trans hb'.2 hle⟩

/-- **C130, episodes.** Two runs of the iterative algorithm from the same state, with the same seeds, one with at least as many
episodes as the other: if the longer one returns and the shorter one has an episode, then the shorter one returns, the state
the longer one ends in follows that of the shorter one (all its results still exist and kept their values), and the result of
the longer one is at least as good. -/
theorem C130_more_episodes (run : Nat → Option R → Py σ R) (restart : Bool) (seeds : Nat → Nat) {few many : Nat} (hfew : 0 < few)
    (hmany : few ≤ many)
    (hrun : ∀ seed initial s x s', V.Good s → (∀ r, initial = some r → V.Alive s r) → run seed initial s = (.ok x, s') →
      V.Follows s s' ∧ V.Alive s' x) (s s' : σ) (y : R) (hg : V.Good s)
    (h : iterative run value restart seeds many s = (.ok y, s')) :
    ∃ x t, iterative run value restart seeds few s = (.ok x, t) ∧ V.Alive t x ∧ V.Follows t s' ∧ V.Alive s' y ∧
      V.val t x ≤ V.val s' y := by
  obtain ⟨more, rfl⟩ := Nat.exists_eq_add_of_le hmany
  unfold iterative at h
  rw [iterativeLoop_split, Py.bind_run, Py.bind_run] at h
  rcases hl : iterativeLoop run value restart seeds few 0 none s with ⟨e | b, t⟩
  · rw [hl] at h; simp at h
  · rw [hl] at h
    simp only at h
    obtain ⟨rs, hlen, _, f, hal, hout⟩ := iterativeLoop_ok (V := V) (fun _ => True)
      (fun seed initial s x s' hg hi hr => by
        obtain ⟨a, b⟩ := hrun seed initial s x s' hg (fun r e => (hi r e).1) hr
        exact ⟨a, b, trivial⟩) few [] none s hg (by simp) (.inl ⟨rfl, rfl⟩) hl
    rcases hout with ⟨h0, _⟩ | ⟨x, rfl, hx⟩
    · simp only [List.nil_append] at h0
      subst h0
      simp at hlen
      omega
    · have hx' : V.Alive t x := (hal x hx.mem).1
      rcases hr : iterativeLoop run value restart seeds more (0 + few) (some x) t with ⟨e | out, t'⟩
      · rw [hr] at h; simp at h
      · rw [hr] at h
        obtain ⟨z, rfl, f2, hz, hle⟩ := iterativeLoop_notWorse hrun more _ x t f.1 hx' hr
        simp only [Py.unwrap, Py.pure_run', Prod.mk.injEq, Except.ok.injEq] at h
        obtain ⟨rfl, rfl⟩ := h
        exact ⟨x, t, by rw [iterative, Py.bind_ok hl]; rfl, hx', f2, hz, hle⟩

/-- A local search with a higher threshold continues where one with a lower threshold stops. -/
theorem localSearch_further [DecidableEq R] {V : Valued σ R value} {improve : R → Py σ R} {low high : Nat} (hle : low ≤ high)
    (himp : ∀ b s c s1, V.Good s → V.Alive s b → improve b s = (.ok c, s1) → V.Follows s s1 ∧ V.Alive s1 c ∧ c ≠ b)
    {y : R} {s' : σ} :
    ∀ (n : Nat) (b : R) (cnt : Nat) (s : σ), cnt ≤ low → V.Good s → V.Alive s b →
      localSearch improve value high n b cnt s = (.ok y, s') →
      ∃ x t m, localSearch improve value low n b cnt s = (.ok x, t) ∧ V.Follows s t ∧ V.Alive t x ∧ m ≤ n ∧
        localSearch improve value high m x low t = (.ok y, s') := by
  intro n
  induction n with
  | zero => intro b cnt s _ _ _ h; simp [localSearch] at h
  | succ n ih =>
    intro b cnt s hc hg ha h
    by_cases hk : cnt < low
    · rw [localSearch, if_pos (by omega), Py.bind_run] at h
      rw [localSearch, if_pos hk, Py.bind_run]
      rcases him : improve b s with ⟨e | c, s1⟩
      · rw [him] at h; simp at h
      · rw [him] at h
        obtain ⟨f1, hac, hne⟩ := himp b s c s1 hg ha him
        have hab := f1.2 b ha
        obtain ⟨s2, e2, f2⟩ := bestResult_two f1.1 hab.1 hac
        simp only at h ⊢
        rw [Py.bind_ok e2] at h ⊢
        by_cases hlt : V.val s1 b < V.val s1 c
        · rw [if_pos hlt, if_pos rfl] at h ⊢
          obtain ⟨x, t, m, h1, h2, h3, h4, h5⟩ := ih c 0 s2 (Nat.zero_le _) f2.1 (f2.2 c hac).1 h
          exact ⟨x, t, m, h1, (f1.trans f2).trans h2, h3, by omega, h5⟩
        · rw [if_neg hlt, if_neg (Ne.symm hne)] at h ⊢
          obtain ⟨x, t, m, h1, h2, h3, h4, h5⟩ := ih b (cnt + 1) s2 hk f2.1 (f2.2 b hab.1).1 h
          exact ⟨x, t, m, h1, (f1.trans f2).trans h2, h3, by omega, h5⟩
    · obtain rfl : cnt = low := by omega
      exact ⟨b, s, n + 1, by rw [localSearch, if_neg hk]; rfl, .refl V hg, ha, le_rfl, h⟩

/-- **C130, patience.** Two local searches from the same result in the same state, one giving up after at least as many rounds
without improvement as the other: if the more patient one returns, so does the other, and the result of the more patient one
is at least as good. -/
theorem C130_more_patience [DecidableEq R] (improve : R → Py σ R) {low high : Nat} (fuel : Nat) (hle : low ≤ high)
    (himp : ∀ b s c s1, V.Good s → V.Alive s b → improve b s = (.ok c, s1) → V.Follows s s1 ∧ V.Alive s1 c ∧ c ≠ b)
    (initial y : R) (s s' : σ) (hg : V.Good s) (ha : V.Alive s initial)
    (h : localSearch improve value high fuel initial 0 s = (.ok y, s')) :
    ∃ x t, localSearch improve value low fuel initial 0 s = (.ok x, t) ∧ V.Alive t x ∧ V.Follows t s' ∧ V.Alive s' y ∧
      V.val t x ≤ V.val s' y := by
  obtain ⟨x, t, m, h1, f, hx, _, h2⟩ := localSearch_further hle himp fuel initial 0 s (Nat.zero_le _) hg ha h
  obtain ⟨f2, hy, hv, _⟩ := localSearch_ok himp m x low t hle f.1 hx h2
  exact ⟨x, t, h1, hx, f2, hy, hv⟩

end generic

/-! ### On the demonstration of C39 and C45 -/

/-- Results are worth `min r 5`: four episodes from state 2 yield results 2, 3, 4 and 5, so each further one is better; three more
bring nothing. -/
example : (iterative (fun _ _ => demoImprove 0) demoValue true id 2 2, iterative (fun _ _ => demoImprove 0) demoValue true id 4 2,
    iterative (fun _ _ => demoImprove 0) demoValue true id 7 2) = ((.ok 3, 4), (.ok 5, 6), (.ok 5, 9)) := by decide +kernel

/-- Every third result is better than all before: impatient searches miss it. -/
def stairsValue (r : Nat) : Py Nat (List ℚ) := fun s => (.ok [((min (r / 3) 5 : Nat) : ℚ)], s)

def stairsValued : Valued Nat Nat stairsValue where
  Good _ := True
  Alive s r := r < s
  val _ r := [((min (r / 3) 5 : Nat) : ℚ)]
  eval s _ _ _ := ⟨s, rfl, trivial, fun _ h => ⟨h, rfl⟩⟩

example : (∀ b s c s1, stairsValued.Good s → stairsValued.Alive s b → demoImprove b s = (.ok c, s1) →
      stairsValued.Follows s s1 ∧ stairsValued.Alive s1 c ∧ c ≠ b) ∧
    (localSearch demoImprove stairsValue 2 30 0 0 1, localSearch demoImprove stairsValue 3 30 0 0 1) = ((.ok 0, 3), (.ok 15, 19)) := by
  refine ⟨?_, by decide +kernel⟩
  rintro b s c s1 _ hb ⟨⟩
  exact ⟨⟨trivial, fun x hx => ⟨Nat.lt_succ_of_lt hx, rfl⟩⟩, Nat.lt_succ_self s, (Nat.ne_of_lt hb).symm⟩

/-! ### The algorithms of the library -/

section whole

variable {E : Env} {fleet job : List Nat} {D : Nat → Heap → Draws} {S : Nat → Heap → Settings} {threshold fuel : Nat} {seeds : Nat → Nat}
  {draw draw' : Nat → Nat → Nat} {firstEpisodes : Nat}

/-- An episode of GRASP leaves existing plannings and yields one. -/
theorem graspEpisode_ok {W : List Nat → Prop} {K : Nat → List Duty → Prop} {md : Mode} {k : Objective} {c0 : Core} {rs0 : List Nat}
    (F : RunSetting E fleet job W K md) (G : InsertSetting E fleet job W K) (hD : ∀ s h, (D s h).OK) (hS : ∀ s h, (S s h).Of E fleet job)
    (hf : 0 < firstEpisodes) (seed : Nat) {s s' : Heap} {x : List Nat} (hg : (plannedValued E fleet job W K md k c0 rs0).Good s)
    (e : logged (logResult E k) (sequential
      [fun _ => logged (logResult E k) (iterative (fun s _ => insertionOptimize E k (S s) fuel none) (resultValue E k) true (draw seed) firstEpisodes),
       fun initial => logged (logResult E k) (iterative (fun s best => logged (logResult E k)
         (sequential (defaultStages E k (D s) (S s) threshold fuel) (best.or initial))) (resultValue E k) false (draw' seed) 3)] none) s = (.ok x, s')) :
    (plannedValued E fleet job W K md k c0 rs0).Follows s s' ∧ (plannedValued E fleet job W K md k c0 rs0).Alive s' x := by
  have hlog := fun r s => logResult_safe (E := E) (fleet := fleet) (job := job) (W := W) (K := K) (md := md)
    (k := k) (c0 := c0) (rs0 := rs0) (X := fun _ => True) F.env F.some r s
  have hfirst : ∀ seed s, (plannedValued E fleet job W K md k c0 rs0).Good s →
      (plannedValued E fleet job W K md k c0 rs0).Safe (fun _ => True) s (insertionOptimize E k (S seed) fuel none) := fun seed s hg =>
    insertionOptimize_safe F G (hS seed) (fun _ _ => trivial) hg (fun _ e => nomatch e)
  have hst := grasp_stages_safe (k := k) (c0 := c0) (rs0 := rs0) (threshold := threshold) (fuel := fuel) (X := fun _ => True) F G hD hS trivial
  obtain ⟨t, e1, hl⟩ := logged_ok e
  have key : (plannedValued E fleet job W K md k c0 rs0).Safe (fun _ => True) s (sequential
      [fun _ => logged (logResult E k) (iterative (fun s _ => insertionOptimize E k (S s) fuel none) (resultValue E k) true (draw seed) firstEpisodes),
       fun initial => logged (logResult E k) (iterative (fun s best => logged (logResult E k)
         (sequential (defaultStages E k (D s) (S s) threshold fuel) (best.or initial))) (resultValue E k) false (draw' seed) 3)] none) := by
    unfold sequential sequentialLoop
    refine Meets.bind (Q := fun o s' => ∃ b, o = some b ∧ (plannedValued E fleet job W K md k c0 rs0).Follows s s' ∧
      (plannedValued E fleet job W K md k c0 rs0).Alive s' b) ?_ ?_
    · refine Meets.bind (logged_safe hlog (iterative_safe (fun _ => True) (fun _ _ _ _ => trivial)
        (fun seed _ s hg _ _ => hfirst seed s hg) hg trivial hf)) ?_
      rintro f s1 ⟨f1, h1⟩
      unfold sequentialLoop
      refine Meets.bind (logged_safe hlog (iterative_safe (fun s => (plannedValued E fleet job W K md k c0 rs0).Alive s f)
        (fun _ _ g h => (g.2 f h).1) ?_ f1.1 h1 (by omega))) ?_
      · intro seed best s hg hp hb
        refine logged_safe hlog ?_
        cases best with
        | none => exact sequential_safe (hst seed) hg hp
        | some b => exact sequential_safe (hst seed) hg (hb b rfl)
      · rintro b s2 ⟨f2, h2⟩
        exact ⟨b, rfl, f1.trans f2, h2⟩
    · rintro o s1 ⟨b, rfl, f, hb⟩
      exact ⟨f, hb⟩
  obtain ⟨f1, h1⟩ := key.ok e1
  have f2 := (hlog x t f1.1 h1).ok hl
  exact ⟨f1.trans f2, (f2.2 x h1).1⟩

/-- **C130, GRASP.** Two runs of GRASP with its default algorithms from the same heap, with the same draws and orders of sets, for
any objective, one with at least as many episodes as the other: if the longer one returns, so does the shorter one, if it has an
episode, and the planning of the longer one is worth at least as much. -/
theorem C130_grasp_more_episodes (hE : EnvOK E) (hf : fleet ≠ []) (hfn : fleet.Nodup) (hjn : job.Nodup) (hD : ∀ s h, (D s h).OK)
    (hS : ∀ s h, (S s h).Of E fleet job) {h : Heap} (nd : NoDangling h.core) {k : Objective} {few many : Nat} (hfew : 0 < few) (hmany : few ≤ many)
    (hfe : 0 < firstEpisodes) {l : List Nat} {h' : Heap}
    (e : graspOptimize E k D S threshold fuel seeds draw draw' many firstEpisodes h = (.ok l, h')) :
    ∃ q t, graspOptimize E k D S threshold fuel seeds draw draw' few firstEpisodes h = (.ok q, t) ∧ PlanningFor E fleet job t q ∧
      PlanningFor E fleet job h' l ∧
      planningValue E k (q.map (planOf E t.core)) ≤ planningValue E k (l.map (planOf E h'.core)) := by
  have F : RunSetting E fleet job (fun _ => True) (fun v ds => True → Proper E v ds) .any := ⟨hE, (fun h => nomatch h), hf, hfn, fun _ _ _ _ => trivial, proper_movable _⟩
  have G : InsertSetting E fleet job (fun _ => True) (fun v ds => True → Proper E v ds) := ⟨hjn, fun _ _ _ => trivial, fun v _ _ => proper_idle v⟩
  have hlog := fun r s => logResult_safe (E := E) (fleet := fleet) (job := job) (W := fun _ => True) (K := fun v ds => True → Proper E v ds) (md := .any)
    (k := k) (c0 := h.core) (rs0 := []) (X := fun _ => False) hE hf r s
  obtain ⟨s2, e2, l2⟩ := logged_ok e
  obtain ⟨s1, e1, l1⟩ := logged_ok e2
  obtain ⟨q, t, eq, hq, f, hl, hle⟩ := C130_more_episodes
    (plannedValued E fleet job (fun _ => True) (fun v ds => True → Proper E v ds) .any k h.core []) _ true seeds hfew hmany
    (fun seed initial s x s' hg _ e => graspEpisode_ok F G hD hS hfe seed hg e) h s1 l ⟨nd, by simp [RoutesKept]⟩ e1
  have g1 := (hlog l s1 f.1 hl).ok l1
  have g2 := (hlog l s2 g1.1 (g1.2 l hl).1).ok l2
  have hgt : (plannedValued E fleet job (fun _ => True) (fun v ds => True → Proper E v ds) .any k h.core []).Good t := by
    have := C45_iterative_first_best (plannedValued E fleet job (fun _ => True) (fun v ds => True → Proper E v ds) .any k h.core []) _ true seeds few
      (fun seed initial s x s' hg _ e => graspEpisode_ok F G hD hS hfe seed hg e) q h t ⟨nd, by simp [RoutesKept]⟩ eq
    obtain ⟨_, _, _, f, _⟩ := this
    exact f.1
  obtain ⟨t1, et1, g3⟩ : ∃ t1, logResult E k q t = (.ok (), t1) ∧
      (plannedValued E fleet job (fun _ => True) (fun v ds => True → Proper E v ds) .any k h.core []).Follows t t1 := by
    have m := hlog q t hgt hq
    rcases et : logResult E k q t with ⟨er | u, t1⟩
    · exact (m.error et).elim
    · exact ⟨t1, rfl, m.ok et⟩
  obtain ⟨t2, et2, g4⟩ : ∃ t2, logResult E k q t1 = (.ok (), t2) ∧
      (plannedValued E fleet job (fun _ => True) (fun v ds => True → Proper E v ds) .any k h.core []).Follows t1 t2 := by
    have m := hlog q t1 g3.1 (g3.2 q hq).1
    rcases et : logResult E k q t1 with ⟨er | u, t2⟩
    · exact (m.error et).elim
    · exact ⟨t2, rfl, m.ok et⟩
  have p1 := (g3.trans g4).2 q hq
  have p2 := (g1.trans g2).2 l hl
  have hv1 : planningValue E k (q.map (planOf E t2.core)) = planningValue E k (q.map (planOf E t.core)) := p1.2
  have hv2 : planningValue E k (l.map (planOf E h'.core)) = planningValue E k (l.map (planOf E s1.core)) := p2.2
  refine ⟨q, t2, ?_, ?_, ?_, by rw [hv1, hv2]; exact hle⟩
  · unfold graspOptimize grasp
    rw [logged, Py.bind_ok (show logged (logResult E k) _ h = (.ok q, t1) by rw [logged, Py.bind_ok eq, Py.bind_ok et1]; rfl), Py.bind_ok et2]
    rfl
  · have a : PlanInv E fleet job _ _ .any t2 q := p1.1
    exact a.forProblem
  · have a : PlanInv E fleet job _ _ .any h' l := p2.1
    exact a.forProblem

/-- **C130, local search.** Two runs of the local search with reallocation from the same planning on the same heap, one giving up
later than the other: if the one that gives up later returns, so does the other, and its planning is worth at most as much. -/
theorem C130_local_search_more_patience {D : Heap → Draws} (hE : EnvOK E) (hf : fleet ≠ []) (hfn : fleet.Nodup) (hD : ∀ h, (D h).OK)
    {h : Heap} (nd : NoDangling h.core) {rs : List Nat} (hp : PlanningFor E fleet job h rs) {k : Objective} {low high : Nat} (hle : low ≤ high)
    {l : List Nat} {h' : Heap} (e : localSearchOptimize E k D high fuel (some rs) h = (.ok l, h')) :
    ∃ q t, localSearchOptimize E k D low fuel (some rs) h = (.ok q, t) ∧ PlanningFor E fleet job t q ∧ PlanningFor E fleet job h' l ∧
      planningValue E k (q.map (planOf E t.core)) ≤ planningValue E k (l.map (planOf E h'.core)) := by
  have F : RunSetting E fleet job (fun _ => True) (fun v ds => ProperRoutes E h rs → Proper E v ds) .any := ⟨hE, (fun h => nomatch h), hf, hfn, fun _ _ _ _ => trivial, proper_movable _⟩
  have p : PlanInv E fleet job (fun _ => True) (fun v ds => ProperRoutes E h rs → Proper E v ds) .any h rs := hp.planned hfn trivial fun r hr hP => hP r hr
  have hg : (plannedValued E fleet job (fun _ => True) (fun v ds => ProperRoutes E h rs → Proper E v ds) .any k h.core rs).Good h := ⟨nd, .self p.wf⟩
  have hlog := fun r s => logResult_safe (E := E) (fleet := fleet) (job := job) (W := fun _ => True) (K := fun v ds => ProperRoutes E h rs → Proper E v ds)
    (md := .any) (k := k) (c0 := h.core) (rs0 := rs) (X := fun _ => False) hE hf r s
  rw [localSearchOptimize_some (p.ne_nil hf)] at e
  obtain ⟨s1, e1, l1⟩ := logged_ok e
  have himp : ∀ b s c s1, (plannedValued E fleet job (fun _ => True) (fun v ds => ProperRoutes E h rs → Proper E v ds) .any k h.core rs).Good s →
      (plannedValued E fleet job (fun _ => True) (fun v ds => ProperRoutes E h rs → Proper E v ds) .any k h.core rs).Alive s b →
      reallocationPass E k D b s = (.ok c, s1) →
      (plannedValued E fleet job (fun _ => True) (fun v ds => ProperRoutes E h rs → Proper E v ds) .any k h.core rs).Follows s s1 ∧
      (plannedValued E fleet job (fun _ => True) (fun v ds => ProperRoutes E h rs → Proper E v ds) .any k h.core rs).Alive s1 c ∧ c ≠ b := by
    intro b s c s1 hg ha e
    obtain ⟨c', s1', e', h'⟩ := pass_improves F hD b s hg ha
    rw [e] at e'
    obtain ⟨rfl, rfl⟩ : c = c' ∧ s1 = s1' := by simpa using e'
    exact h'
  obtain ⟨q, t, eq, hq, f, hl, hv⟩ := C130_more_patience
    (plannedValued E fleet job (fun _ => True) (fun v ds => ProperRoutes E h rs → Proper E v ds) .any k h.core rs) (reallocationPass E k D) fuel hle himp
    rs l h s1 hg p e1
  have g1 := (hlog l s1 f.1 hl).ok l1
  have hgt := (localSearch_ok himp fuel rs 0 h (Nat.zero_le _) hg p eq).1.1
  obtain ⟨t1, et1, g2⟩ : ∃ t1, logResult E k q t = (.ok (), t1) ∧
      (plannedValued E fleet job (fun _ => True) (fun v ds => ProperRoutes E h rs → Proper E v ds) .any k h.core rs).Follows t t1 := by
    have m := hlog q t hgt hq
    rcases et : logResult E k q t with ⟨er | u, t1⟩
    · exact (m.error et).elim
    · exact ⟨t1, rfl, m.ok et⟩
  have hv1 : planningValue E k (q.map (planOf E t1.core)) = planningValue E k (q.map (planOf E t.core)) := (g2.2 q hq).2
  have hv2 : planningValue E k (l.map (planOf E h'.core)) = planningValue E k (l.map (planOf E s1.core)) := (g1.2 l hl).2
  refine ⟨q, t1, ?_, ?_, ?_, by rw [hv1, hv2]; exact hv⟩
  · rw [localSearchOptimize_some (p.ne_nil hf), logged, Py.bind_ok eq, Py.bind_ok et1]
    rfl
  · have a : PlanInv E fleet job _ _ .any t1 q := (g2.2 q hq).1
    exact a.forProblem
  · have a : PlanInv E fleet job _ _ .any h' l := (g1.2 l hl).1
    exact a.forProblem

end whole

/-- On the planning of C81, a search that gives up at once keeps the trip where it is; one that makes a round moves it. The
hypotheses hold. -/
example : (localSearchOptimize swapEnv .dialARide (fun _ => plainDraws) 0 5 (some [1, 2]) swap2).1 = .ok [1, 2] ∧
    ∃ l h', localSearchOptimize swapEnv .dialARide (fun _ => plainDraws) 1 5 (some [1, 2]) swap2 = (.ok l, h') ∧ l = [6, 7] ∧
    ∃ q t, localSearchOptimize swapEnv .dialARide (fun _ => plainDraws) 0 5 (some [1, 2]) swap2 = (.ok q, t) ∧ PlanningFor swapEnv [0, 1] [0] t q ∧
      PlanningFor swapEnv [0, 1] [0] h' l ∧
      planningValue swapEnv .dialARide (q.map (planOf swapEnv t.core)) ≤ planningValue swapEnv .dialARide (l.map (planOf swapEnv h'.core)) := by
  refine ⟨by decide +kernel, ?_⟩
  have e : localSearchOptimize swapEnv .dialARide (fun _ => plainDraws) 1 5 (some [1, 2]) swap2 =
      (.ok [6, 7], (localSearchOptimize swapEnv .dialARide (fun _ => plainDraws) 1 5 (some [1, 2]) swap2).2) := eq_of_fst (by decide +kernel)
  exact ⟨_, _, e, rfl, C130_local_search_more_patience swapEnv_ok (by simp) (by simp) (fun _ => plainDraws_ok) swap2_noDangling swap_planning
    (Nat.zero_le 1) e⟩

/-- GRASP with one and with two episodes on the empty heap: both return, and the hypotheses hold. -/
example : ∃ n, ∀ fuel, n ≤ fuel → ∃ l h' q t,
    graspOptimize swapEnv .dialARide (fun _ _ => plainDraws) (fun _ _ => swapSettings) 1 fuel id (fun a b => a + b) (fun a b => a * b) 2 1 .empty = (.ok l, h') ∧
    graspOptimize swapEnv .dialARide (fun _ _ => plainDraws) (fun _ _ => swapSettings) 1 fuel id (fun a b => a + b) (fun a b => a * b) 1 1 .empty = (.ok q, t) ∧
    planningValue swapEnv .dialARide (q.map (planOf swapEnv t.core)) ≤ planningValue swapEnv .dialARide (l.map (planOf swapEnv h'.core)) := by
  obtain ⟨n, hn⟩ := C83_grasp_returns (fleet := [0, 1]) (job := [0]) swapEnv_ok (by simp) (by simp) (by simp) 1 (k := .dialARide) (by decide)
  refine ⟨n, fun fuel hfuel => ?_⟩
  obtain ⟨l, h', e⟩ := hn (fun _ _ => plainDraws) (fun _ _ => swapSettings) fuel id (fun a b => a + b) (fun a b => a * b) 2 1 .empty
    (fun _ _ => plainDraws_ok) (fun _ _ => swapSettings_of) (fun _ _ _ _ _ h => nomatch h) empty_noDangling (by omega) (by omega) hfuel
  obtain ⟨q, t, e', _, _, hle⟩ := C130_grasp_more_episodes (fleet := [0, 1]) (job := [0]) swapEnv_ok (by simp) (by simp) (by simp)
    (fun _ _ => plainDraws_ok) (fun _ _ => swapSettings_of) empty_noDangling (few := 1) (by omega) (by omega) (by omega) e
  exact ⟨l, h', q, t, e, e', hle⟩

/-! ### More first solutions may hurt -/

/-- Results 0, 1, 2 are first solutions, and improving them may yield 10. -/
def trapValue (r : Nat) : Py Nat (List ℚ) := fun s => (.ok [(r : ℚ)], s)

/-- The `i`-th first solution is `i`. -/
def trapFirst (seed : Nat) : Py Nat Nat := fun s => (.ok seed, s)

/-- Improvement finds 10 from 0, and nothing from elsewhere. -/
def trapStage (initial : Option Nat) : Py Nat Nat := fun s => (.ok (if initial = some 0 then 10 else initial.getD 0), s)

/-- **C130, limits.** The number of first solutions per episode is another matter: GRASP keeps the best of them only, and improvement
may lead further from a worse one. With one first solution the result here is worth 10, with two it is worth 1. -/
theorem C130_more_first_solutions_may_hurt :
    grasp (fun _ => pure ()) trapFirst (fun _ => [trapStage]) trapValue id (fun _ i => i) (fun _ i => i) 1 1 0 = (.ok 10, 0) ∧
    grasp (fun _ => pure ()) trapFirst (fun _ => [trapStage]) trapValue id (fun _ i => i) (fun _ i => i) 1 2 0 = (.ok 1, 0) := by
  decide +kernel

end Jinete
