import Verif.Proofs.Search

/-!
# Properties of the search loops (C39, C45, C46, C65)

Strategies and inner algorithms are arbitrary computations on an arbitrary state. A `Valued` says which results exist
and what the objective evaluates to; the hypotheses ask the inner computations not to damage existing results.
-/

set_option autoImplicit false

namespace Jinete

variable {σ R : Type} {value : R → Py σ (List ℚ)} (V : Valued σ R value)

/-! ## C39 -/

/-- When the local search returns, its result is at least as good as the initial one. It made rounds until, for the
first time, `threshold` rounds in a row brought no strict improvement. The strategy must return another object than
the one it is given (it works on a deep copy, jinete/algorithms/heuristics/local_search/strategies/abc.py:35-38). -/
theorem C39_local_search_not_worse [DecidableEq R] (improve : R → Py σ R) (threshold fuel : Nat)
    (himp : ∀ b s c s1, V.Good s → V.Alive s b → improve b s = (.ok c, s1) → V.Follows s s1 ∧ V.Alive s1 c ∧ c ≠ b)
    (initial x : R) (s s' : σ) (hg : V.Good s) (ha : V.Alive s initial)
    (h : localSearch improve value threshold fuel initial 0 s = (.ok x, s')) :
    V.Follows s s' ∧ V.Alive s' x ∧ V.val s initial ≤ V.val s' x ∧
      ∃ rounds, V.Rounds improve initial s rounds x s' ∧ trailing rounds = threshold ∧
        ∀ p q, rounds = p ++ q → q ≠ [] → trailing p < threshold := by
  obtain ⟨f, hx, hle, l, hr, hc, hp⟩ := localSearch_ok himp fuel initial 0 s (Nat.zero_le _) hg ha h
  refine ⟨f, hx, hle, l, hr, ?_, ?_⟩
  · rw [← countOf_zero]; exact hc
  · intro p q e hq
    rw [← countOf_zero]; exact hp p q e hq

/-- If the strategy always succeeds and only finitely many objective values are possible, the search ends, and the
outcome does not depend on how long one is prepared to wait. -/
theorem C39_local_search_ends [DecidableEq R] (improve : R → Py σ R) (threshold : Nat)
    (himp : ∀ b s, V.Good s → V.Alive s b → ∃ c s1, improve b s = (.ok c, s1) ∧ V.Follows s s1 ∧ V.Alive s1 c ∧ c ≠ b)
    (values : Finset (List ℚ)) (hv : ∀ s r, V.Good s → V.Alive s r → V.val s r ∈ values)
    (initial : R) (s : σ) (hg : V.Good s) (ha : V.Alive s initial) :
    ∃ n x s', ∀ m, n ≤ m → localSearch improve value threshold m initial 0 s = (.ok x, s') := by
  obtain ⟨n, x, s', h⟩ := localSearch_ends himp values hv _ _ initial 0 s rfl rfl hg ha
  exact ⟨n, x, s', fun m hm => localSearch_mono n m _ _ _ hm h⟩

/-- Results numbered by creation; the value of number `r` is `min r 5`. -/
def demoValue (r : Nat) : Py Nat (List ℚ) := fun s => (.ok [((min r 5 : Nat) : ℚ)], s)

def demoValued : Valued Nat Nat demoValue where
  Good _ := True
  Alive s r := r < s
  val _ r := [((min r 5 : Nat) : ℚ)]
  eval s _ _ _ := ⟨s, rfl, trivial, fun _ h => ⟨h, rfl⟩⟩

/-- A strategy that creates the next number. -/
def demoImprove (_ : Nat) : Py Nat Nat := fun s => (.ok s, s + 1)

/-- The hypotheses hold for it, and a search with threshold 2 from result 0 improves five times, then fails twice. -/
example : (∀ b s, demoValued.Good s → demoValued.Alive s b → ∃ c s1, demoImprove b s = (.ok c, s1) ∧
      demoValued.Follows s s1 ∧ demoValued.Alive s1 c ∧ c ≠ b) ∧
    (∀ s r, demoValued.Good s → demoValued.Alive s r → demoValued.val s r ∈ ({[0], [1], [2], [3], [4], [5]} : Finset (List ℚ))) ∧
    localSearch demoImprove demoValue 2 20 0 0 1 = (.ok 5, 8) := by
  refine ⟨fun b s _ hb => ⟨s, s + 1, rfl, ⟨trivial, fun x hx => ⟨Nat.lt_succ_of_lt hx, rfl⟩⟩, Nat.lt_succ_self s, ?_⟩, ?_,
    by decide +kernel⟩
  · exact (Nat.ne_of_lt hb).symm
  · intro s r _ _
    have h5 : min r 5 = 0 ∨ min r 5 = 1 ∨ min r 5 = 2 ∨ min r 5 = 3 ∨ min r 5 = 4 ∨ min r 5 = 5 := by omega
    simp only [demoValued]
    rcases h5 with h | h | h | h | h | h <;> rw [h] <;> decide +kernel

/-! ## C45 -/

/-- When the iterative algorithm returns, it has run the inner algorithm exactly `episodes` times, each time with the
next seed (and from the best result so far when not restarting), and returns the first best of their results. -/
theorem C45_iterative_first_best (run : Nat → Option R → Py σ R) (restart : Bool) (seeds : Nat → Nat) (episodes : Nat)
    (hrun : ∀ seed initial s x s', V.Good s → (∀ r, initial = some r → V.Alive s r) → run seed initial s = (.ok x, s') →
      V.Follows s s' ∧ V.Alive s' x) (x : R) (s s' : σ) (hg : V.Good s)
    (h : iterative run value restart seeds episodes s = (.ok x, s')) :
    ∃ rs, rs.length = episodes ∧ V.Episodes run restart seeds [] s rs s' ∧ V.Follows s s' ∧
      (∀ r ∈ rs, V.Alive s' r) ∧ V.FirstBest s' rs x := by
  unfold iterative at h
  rw [Py.bind_run] at h
  cases hl : iterativeLoop run value restart seeds episodes 0 none s with
  | mk r s1 =>
    rw [hl] at h
    cases r with
    | error e => simp at h
    | ok out =>
      simp only at h
      obtain ⟨rs, hlen, hep, f, hal, hout⟩ := iterativeLoop_ok (V := V) (fun _ => True)
        (fun seed initial s x s' hg hi hr => by
          obtain ⟨a, b⟩ := hrun seed initial s x s' hg (fun r e => (hi r e).1) hr
          exact ⟨a, b, trivial⟩) episodes [] none s hg (by simp) (.inl ⟨rfl, rfl⟩) hl
      rcases hout with ⟨_, rfl⟩ | ⟨b, rfl, hb⟩
      · simp [Py.unwrap] at h
      · simp only [Py.unwrap, Py.pure_run', Prod.mk.injEq, Except.ok.injEq] at h
        obtain ⟨rfl, rfl⟩ := h
        exact ⟨rs, hlen, hep, f, fun r hr => (hal r (by simpa using hr)).1, by simpa using hb⟩

/-- If the inner algorithm always returns, so does the iterative one with at least one episode; with none it raises
`AssertionError`. -/
theorem C45_iterative_returns (run : Nat → Option R → Py σ R) (restart : Bool) (seeds : Nat → Nat) (episodes : Nat)
    (hrun : ∀ seed initial s, V.Good s → (∀ r, initial = some r → V.Alive s r) → ∃ x s', run seed initial s = (.ok x, s') ∧
      V.Follows s s' ∧ V.Alive s' x) (s : σ) (hg : V.Good s) :
    (0 < episodes → ∃ x s', iterative run value restart seeds episodes s = (.ok x, s')) ∧
    (episodes = 0 → iterative run value restart seeds episodes s = (.error .assertion, s)) := by
  constructor
  · intro hpos
    have key : ∀ (n i : Nat) (best : Option R) (s : σ), V.Good s → (∀ r, best = some r → V.Alive s r) →
        (0 < n ∨ best ≠ none) → ∃ b s', iterativeLoop run value restart seeds n i best s = (.ok (some b), s') := by
      intro n
      induction n with
      | zero =>
        intro i best s _ _ hb
        obtain ⟨b, rfl⟩ := Option.ne_none_iff_exists'.1 (hb.resolve_left (by omega))
        exact ⟨b, s, rfl⟩
      | succ n ih =>
        intro i best s hg ha _
        obtain ⟨c, s1, e1, f1, hc⟩ := hrun (seeds i) (if restart then none else best) s hg (by
          intro r e
          split at e
          · cases e
          · exact ha r e)
        have hbest : ∃ b' s2, bestResult value best c s1 = (.ok b', s2) ∧ V.Follows s1 s2 ∧ V.Alive s2 b' := by
          cases best with
          | none =>
            obtain ⟨s2, e2, f2⟩ := bestResult_one f1.1 hc
            exact ⟨c, s2, e2, f2, (f2.2 c hc).1⟩
          | some b =>
            have hb := (f1.2 b (ha b rfl)).1
            obtain ⟨s2, e2, f2⟩ := bestResult_two f1.1 hb hc
            refine ⟨_, s2, e2, f2, ?_⟩
            split
            · exact (f2.2 c hc).1
            · exact (f2.2 b hb).1
        obtain ⟨b', s2, e2, f2, hb'⟩ := hbest
        obtain ⟨b, s', e⟩ := ih (i + 1) (some b') s2 f2.1 (by rintro r ⟨⟩; exact hb') (.inr (by simp))
        exact ⟨b, s', by rw [iterativeLoop, Py.bind_ok e1, Py.bind_ok e2]; exact e⟩
    obtain ⟨b, s', e⟩ := key episodes 0 none s hg (by simp) (.inl hpos)
    exact ⟨b, s', by rw [iterative, Py.bind_ok e]; rfl⟩
  · rintro rfl
    rfl

/-- Five episodes (seeds 3, 7, 6, 1, 5; result = seed) compared by `min r 5`: the first of the maximal ones. -/
example : iterative (fun seed _ => fun s => (.ok seed, max s (seed + 1))) demoValue true
      (fun i => [3, 7, 6, 1, 5].getD i 0) 5 0 = (.ok 7, 8) ∧
    ∀ seed (initial : Option Nat) s x s', demoValued.Good s → (∀ r, initial = some r → demoValued.Alive s r) →
      (fun (seed : Nat) (_ : Option Nat) => (fun s => (.ok seed, max s (seed + 1)) : Py Nat Nat)) seed initial s = (.ok x, s') →
      demoValued.Follows s s' ∧ demoValued.Alive s' x := by
  refine ⟨by decide +kernel, ?_⟩
  intro seed initial s x s' _ _ h
  simp only [Prod.mk.injEq, Except.ok.injEq] at h
  obtain ⟨rfl, rfl⟩ := h
  exact ⟨⟨trivial, fun y hy => ⟨lt_of_lt_of_le hy (le_max_left _ _), rfl⟩⟩, lt_of_lt_of_le (Nat.lt_succ_self _) (le_max_right _ _)⟩

/-! ## C46 -/

/-- When the sequential algorithm returns, every stage has run, in order, each from the result of the one before it
(the first from the given initial result), and the result is that of the last one. -/
theorem C46_sequential_threads (stages : List (Option R → Py σ R)) (initial : Option R) (x : R) (s s' : σ)
    (h : sequential stages initial s = (.ok x, s')) :
    ∃ rs states, Threaded stages initial s rs states s' ∧
      some x = if stages = [] then initial else rs.getLast? := by
  unfold sequential at h
  rw [Py.bind_run] at h
  cases hl : sequentialLoop stages initial s with
  | mk r s1 =>
    rw [hl] at h
    cases r with
    | error e => simp at h
    | ok out =>
      simp only at h
      obtain ⟨rs, states, ht, e⟩ := sequentialLoop_ok stages initial s hl
      cases out with
      | none => simp [Py.unwrap] at h
      | some b =>
        simp only [Py.unwrap, Py.pure_run', Prod.mk.injEq, Except.ok.injEq] at h
        obtain ⟨rfl, rfl⟩ := h
        exact ⟨rs, states, ht, e⟩

/-- If no stage worsens the result it starts from, neither does the sequence. -/
theorem C46_sequential_not_worse (stages : List (Option R → Py σ R)) (r0 : R)
    (hst : ∀ st ∈ stages, ∀ r, V.NotWorse r (st (some r))) : V.NotWorse r0 (sequential stages (some r0)) := by
  intro s x s' hg ha h
  unfold sequential at h
  rw [Py.bind_run] at h
  cases hl : sequentialLoop stages (some r0) s with
  | mk r s1 =>
    rw [hl] at h
    cases r with
    | error e => simp at h
    | ok out =>
      simp only at h
      obtain ⟨y, rfl, f, hy, hle⟩ := sequentialLoop_not_worse stages r0 s hst hg ha hl
      simp only [Py.unwrap, Py.pure_run', Prod.mk.injEq, Except.ok.injEq] at h
      obtain ⟨rfl, rfl⟩ := h
      exact ⟨f, hy, hle⟩

/-- Without stages and without initial result it raises `AttributeError` (`None.planning`). -/
theorem C46_nothing_raises (s : σ) : sequential ([] : List (Option R → Py σ R)) none s = (.error .attributeError, s) := rfl

/-- Two stages, each creating the next number: neither worsens. -/
example : (sequential [fun o => demoImprove (o.getD 0), fun o => demoImprove (o.getD 0)] (some 2) 3 = (.ok 4, 5)) ∧
    ∃ rs states, Threaded [fun o => demoImprove (o.getD 0), fun o => demoImprove (o.getD 0)] (some 2) 3 rs states 5 :=
  ⟨rfl, (C46_sequential_threads _ _ _ _ _ (rfl : sequential [fun o => demoImprove (o.getD 0), fun o => demoImprove (o.getD 0)]
    (some 2) 3 = (.ok 4, 5))).imp fun _ h => h.imp fun _ h => h.1⟩

example : ∀ r, demoValued.NotWorse r ((fun o : Option Nat => demoImprove (o.getD 0)) (some r)) := by
  intro r s x s' _ ha h
  simp only [demoImprove, Prod.mk.injEq, Except.ok.injEq] at h
  obtain ⟨rfl, rfl⟩ := h
  refine ⟨⟨trivial, fun y hy => ⟨Nat.lt_succ_of_lt hy, rfl⟩⟩, Nat.lt_succ_self _, ?_⟩
  have : (r : Nat) < s := ha
  have hle : ((min r 5 : Nat) : ℚ) ≤ ((min s 5 : Nat) : ℚ) := by
    rw [Nat.cast_le]; omega
  rcases lt_or_eq_of_le hle with h | h
  · exact le_of_lt (List.Lex.rel h)
  · simp only [demoValued, h, le_refl]

/-! ## C65 -/

theorem episodes_each {run : Nat → Option R → Py σ R} {restart : Bool} {seeds : Nat → Nat} (First : Nat → R → Prop)
    (hrun : ∀ i initial s x s', V.Good s → run (seeds i) initial s = (.ok x, s') →
      V.Follows s s' ∧ V.Alive s' x ∧ ∃ f, First i f ∧ V.Alive s' f ∧ V.val s' f ≤ V.val s' x)
    {past rs : List R} {s s' : σ} (he : V.Episodes run restart seeds past s rs s') (hg : V.Good s) :
    V.Follows s s' ∧ ∃ fs : List R, List.Forall₂ (fun f c => V.Alive s' f ∧ V.Alive s' c ∧ V.val s' f ≤ V.val s' c) fs rs ∧
      ∀ (k : Nat) (f : R), fs[k]? = some f → First (past.length + k) f := by
  induction he with
  | done past s => exact ⟨.refl V hg, [], .nil, by simp⟩
  | next fresh best ran f rest ih =>
    obtain ⟨f1, hc, fi, hfi, hal, hle⟩ := hrun _ _ _ _ _ hg ran
    obtain ⟨f3, fs, hF, hi⟩ := ih f.1
    refine ⟨(f1.trans f).trans f3, fi :: fs, .cons ?_ hF, ?_⟩
    · have g := f.trans f3
      refine ⟨(g.2 _ hal).1, (g.2 _ hc).1, ?_⟩
      rw [(g.2 _ hal).2, (g.2 _ hc).2]; exact hle
    · intro k x hk
      cases k with
      | zero =>
        simp only [List.getElem?_cons_zero, Option.some.injEq] at hk
        subst hk; exact hfi
      | succ k =>
        have := hi k x (by simpa using hk)
        rw [List.length_append, List.length_singleton, Nat.add_assoc, Nat.add_comm 1 k] at this
        exact this

theorem episodes_follows {run : Nat → Option R → Py σ R} {restart : Bool} {seeds : Nat → Nat} {past rs : List R} {s s' : σ}
    (he : V.Episodes run restart seeds past s rs s') (hg : V.Good s)
    (hrun : ∀ seed initial s x s', V.Good s → (∀ r, initial = some r → V.Alive s r) → run seed initial s = (.ok x, s') →
      V.Follows s s' ∧ V.Alive s' x) (ha : ∀ r ∈ past, V.Alive s r) : V.Follows s s' := by
  induction he with
  | done past s => exact .refl V hg
  | @next past rs initial c s s1 s2 s' fresh best ran f rest ih =>
    obtain ⟨f1, hc⟩ := hrun _ _ _ _ _ hg (by
      intro r e
      cases restart with
      | true => rw [fresh (.inl rfl)] at e; cases e
      | false =>
        by_cases hp : past = []
        · rw [fresh (.inr hp)] at e; cases e
        · obtain ⟨b, e', hb⟩ := best rfl hp
          rw [e'] at e; cases e; exact ha _ hb.mem) ran
    refine (f1.trans f).trans (ih f.1 ?_)
    intro r hr
    rcases List.mem_append.1 hr with hr | hr
    · exact ((f1.trans f).2 r (ha r hr)).1
    · obtain rfl := List.mem_singleton.1 hr; exact (f.2 _ hc).1

theorem forall₂_mem {α β : Type} {P : α → β → Prop} {l : List α} {l' : List β} (h : List.Forall₂ P l l') {a : α} (ha : a ∈ l) :
    ∃ b ∈ l', P a b := by
  induction h with
  | nil => cases ha
  | cons hab _ ih =>
    rcases List.mem_cons.1 ha with rfl | ha
    · exact ⟨_, by simp, hab⟩
    · obtain ⟨b, hb, h⟩ := ih ha
      exact ⟨b, by simp [hb], h⟩

theorem logged_ok {log : R → Py σ Unit} {m : Py σ R} {s s' : σ} {x : R} (h : logged log m s = (.ok x, s')) :
    ∃ s1, m s = (.ok x, s1) ∧ log x s1 = (.ok (), s') := by
  unfold logged at h
  rw [Py.bind_run] at h
  rcases hm : m s with ⟨e | r, s1⟩
  · rw [hm] at h; simp at h
  · rw [hm] at h
    simp only at h
    rw [Py.bind_run] at h
    rcases hl : log r s1 with ⟨e | u, s2⟩
    · rw [hl] at h; simp at h
    · rw [hl] at h
      simp only [Py.pure_run, Prod.mk.injEq, Except.ok.injEq] at h
      obtain ⟨rfl, rfl⟩ := h
      exact ⟨s1, rfl, hl⟩

/-- When GRASP returns, its result is at least as good as the first solution of every one of its episodes, provided no
stage of the improvement worsens the result it starts from and logging changes no value. -/
theorem C65_grasp_at_least_first_solutions (log : R → Py σ Unit) (first : Nat → Py σ R) (stages : Nat → List (Option R → Py σ R))
    (seeds : Nat → Nat) (draw draw' : Nat → Nat → Nat) (episodes firstEpisodes : Nat)
    (hlog : ∀ r s s', V.Good s → V.Alive s r → log r s = (.ok (), s') → V.Follows s s')
    (hfirst : ∀ seed, V.Yields (first seed)) (hst : ∀ seed, ∀ st ∈ stages seed, ∀ r, V.NotWorse r (st (some r)))
    (x : R) (s s' : σ) (hg : V.Good s)
    (h : grasp log first stages value seeds draw draw' episodes firstEpisodes s = (.ok x, s')) :
    V.Follows s s' ∧ V.Alive s' x ∧ ∃ firsts : List R, firsts.length = episodes ∧
      (∀ f ∈ firsts, V.Alive s' f ∧ V.val s' f ≤ V.val s' x) ∧
      ∀ (i : Nat) (f : R), firsts[i]? = some f → ∃ t t', V.Good t ∧
        iterative (fun seed _ => first seed) value true (draw (seeds i)) firstEpisodes t = (.ok f, t') := by
  have hrun : ∀ i (initial : Option R) s x s', V.Good s →
      (fun seed (_ : Option R) => logged log (sequential
        [fun _ => logged log (iterative (fun s _ => first s) value true (draw seed) firstEpisodes),
         fun initial => logged log (iterative (fun s best => logged log (sequential (stages s) (best.or initial))) value false
          (draw' seed) 3)] none)) i initial s = (.ok x, s') →
      V.Follows s s' ∧ V.Alive s' x ∧ ∃ f, (∃ t t', V.Good t ∧
        iterative (fun seed _ => first seed) value true (draw i) firstEpisodes t = (.ok f, t')) ∧
        V.Alive s' f ∧ V.val s' f ≤ V.val s' x := by
    intro i initial s x s' hg h
    obtain ⟨s0, h, hl0⟩ := logged_ok h
    obtain ⟨rs, states, ht, e⟩ := C46_sequential_threads _ _ _ _ _ h
    obtain ⟨t0, t1, f, h0, h1, hf, hr⟩ := ht.step 0 (by simp)
    obtain ⟨t1', t2, y, h1', h2, hy, hr2⟩ := ht.step 1 (by simp)
    have e0 : t0 = s := by have := ht.first; rw [h0] at this; exact Option.some.inj this
    have e1 : t1' = t1 := by rw [h1] at h1'; exact (Option.some.inj h1').symm
    have e2 : t2 = s0 := by have := ht.last; simp only [List.length_cons, List.length_nil] at this; rw [h2] at this; exact Option.some.inj this
    have ey : y = x := by
      have hlen := ht.results
      simp only [List.length_cons, List.length_nil] at hlen
      match rs, hlen with
      | [a, b], _ =>
        simp only [List.getElem?_cons_succ, List.getElem?_cons_zero, Option.some.injEq] at hy
        simp at e
        rw [← hy, e]
    subst e0 e1 e2 ey
    simp only [Nat.sub_self, hf, one_ne_zero, if_false, List.getElem_cons_succ, List.getElem_cons_zero] at hr2
    simp only [if_true, List.getElem_cons_zero] at hr
    obtain ⟨t1, hr, hl1⟩ := logged_ok hr
    obtain ⟨t2, hr2, hl2⟩ := logged_ok hr2
    obtain ⟨fs, -, -, g1, hal, hfb⟩ := C45_iterative_first_best V (fun s _ => first s) true (draw i) firstEpisodes
      (fun seed _ s x s' hg _ h => hfirst seed s x s' hg h) f _ _ hg hr
    have gl1 := hlog f _ _ g1.1 (hal f hfb.mem) hl1
    have haf := (gl1.2 f (hal f hfb.mem)).1
    replace g1 := g1.trans gl1
    -- the improvement works in states where `f` exists
    let W : Valued σ R value :=
      { Good := fun s => V.Good s ∧ V.Alive s f
        Alive := V.Alive
        val := V.val
        eval := fun s r hg ha => by
          obtain ⟨s', e, g, k⟩ := V.eval s r hg.1 ha
          exact ⟨s', e, ⟨g, (k f hg.2).1⟩, k⟩ }
    have toV : ∀ {s s' : σ}, W.Follows s s' → V.Follows s s' := fun g => ⟨g.1.1, g.2⟩
    have hW : ∀ seed (b r : R) s s', W.Good s → W.Alive s b → logged log (sequential (stages seed) (some b)) s = (.ok r, s') →
        W.Follows s s' ∧ W.Alive s' r ∧ V.val s b ≤ V.val s' r := by
      intro seed b r s s' hg ha h
      obtain ⟨s1, h, hl⟩ := logged_ok h
      obtain ⟨g, hr, hle⟩ := C46_sequential_not_worse V (stages seed) b (hst seed) s r s1 hg.1 ha h
      have gl := hlog r _ _ g.1 hr hl
      replace g := g.trans gl
      exact ⟨⟨⟨g.1, (g.2 f hg.2).1⟩, g.2⟩, (gl.2 r hr).1, by rw [(gl.2 r hr).2]; exact hle⟩
    obtain ⟨cs, hlen, hep, g2, hals, hfb2⟩ := C45_iterative_first_best W
      (fun s best => logged log (sequential (stages s) (best.or (some f)))) false (draw' i) 3
      (by
        intro seed best s x s' hg ha h
        cases best with
        | none => obtain ⟨g, hx, _⟩ := hW seed f x s s' hg hg.2 h; exact ⟨g, hx⟩
        | some b => obtain ⟨g, hx, _⟩ := hW seed b x s s' hg (ha b rfl) h; exact ⟨g, hx⟩) y _ _ ⟨g1.1, haf⟩ hr2
    have ay := hals y hfb2.mem
    have gl2 := hlog y _ _ g2.1.1 ay hl2
    have ay2 := gl2.2 y ay
    have gl0 := hlog y _ _ gl2.1 ay2.1 hl0
    have gl := gl2.trans gl0
    have af := (g2.2 f haf).1
    refine ⟨(g1.trans (toV g2)).trans gl, (gl.2 y ay).1, f, ⟨_, _, hg, hr⟩, (gl.2 f af).1, ?_⟩
    rw [(gl.2 f af).2, (gl.2 y ay).2]
    cases hep with
    | done => simp at hlen
    | next fresh best ran g3 rest =>
      rw [fresh (.inr rfl)] at ran
      obtain ⟨g4, hc, hle⟩ := hW _ f _ _ _ ⟨g1.1, haf⟩ haf ran
      have hlast := episodes_follows W rest g3.1
        (by
          intro seed best s x s' hg ha h
          cases best with
          | none => obtain ⟨g, hx, _⟩ := hW seed f x s s' hg hg.2 h; exact ⟨g, hx⟩
          | some b => obtain ⟨g, hx, _⟩ := hW seed b x s s' hg (ha b rfl) h; exact ⟨g, hx⟩)
        (by simpa using (g3.2 _ hc).1)
      have hcy := hfb2.le (r := _) (List.mem_cons_self)
      rw [(g2.2 f haf).2]
      have e := ((g3.trans hlast).2 _ hc).2
      change V.val _ f ≤ V.val _ _
      exact le_trans hle (by rw [← e]; exact hcy)
  unfold grasp at h
  obtain ⟨s1, h, hl⟩ := logged_ok h
  obtain ⟨rs, hlen, hep, g, hal, hfb⟩ := C45_iterative_first_best V _ true seeds episodes
    (fun seed initial s x s' hg _ h => by
      obtain ⟨a, b, _⟩ := hrun seed initial s x s' hg h
      exact ⟨a, b⟩) x s s1 hg h
  have gl := hlog x _ _ g.1 (hal x hfb.mem) hl
  obtain ⟨-, fs, hF, hi⟩ := episodes_each V (fun i f => ∃ t t', V.Good t ∧
    iterative (fun seed _ => first seed) value true (draw (seeds i)) firstEpisodes t = (.ok f, t'))
    (fun i initial s x s' hg h => hrun (seeds i) initial s x s' hg h) hep hg
  refine ⟨g.trans gl, (gl.2 x (hal x hfb.mem)).1, fs, by rw [hF.length_eq, hlen], ?_, ?_⟩
  · intro f hf
    obtain ⟨c, hc, ha, _, hle⟩ := forall₂_mem hF hf
    refine ⟨(gl.2 f ha).1, ?_⟩
    rw [(gl.2 f ha).2, (gl.2 x (hal x hfb.mem)).2]
    exact le_trans hle (hfb.le hc)
  · intro i f hf
    simpa using hi i f hf

/-- Two GRASP episodes over the numbered results. -/
example : grasp (fun _ => pure ()) (fun _ => demoImprove 0) (fun _ => [fun o => demoImprove (o.getD 0)]) demoValue id (fun a b => a + b)
    (fun a b => a * b) 2 3 0 = (.ok 5, 12) := by decide +kernel

end Jinete
