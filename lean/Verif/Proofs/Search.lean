import Verif.Spec.Search
import Verif.Model.Search
import Verif.Proofs.Choose
import Mathlib.Data.List.Induction
import Mathlib.Data.Finset.Card

/-!
# The search loops
-/

set_option autoImplicit false

namespace Jinete

variable {σ R : Type} {value : R → Py σ (List ℚ)} (V : Valued σ R value)

theorem Valued.Follows.refl {s : σ} (h : V.Good s) : V.Follows s s := ⟨h, fun _ ha => ⟨ha, rfl⟩⟩

variable {V}

theorem Valued.Follows.trans {s s1 s2 : σ} (h : V.Follows s s1) (h' : V.Follows s1 s2) : V.Follows s s2 :=
  ⟨h'.1, fun x hx => ⟨(h'.2 x (h.2 x hx).1).1, ((h'.2 x (h.2 x hx).1).2).trans (h.2 x hx).2⟩⟩

theorem Valued.eval' {s : σ} {r : R} (hg : V.Good s) (ha : V.Alive s r) :
    ∃ s', value r s = (.ok (V.val s r), s') ∧ V.Follows s s' := V.eval s r hg ha

/-- Comparing two existing results keeps the first unless the second is larger. -/
theorem bestResult_two {s : σ} {a b : R} (hg : V.Good s) (ha : V.Alive s a) (hb : V.Alive s b) :
    ∃ s', bestResult value (some a) b s = (.ok (if V.val s a < V.val s b then b else a), s') ∧ V.Follows s s' := by
  obtain ⟨s1, e1, f1⟩ := Valued.eval' hg ha
  obtain ⟨s2, e2, f2⟩ := Valued.eval' f1.1 (f1.2 b hb).1
  refine ⟨s2, ?_, f1.trans f2⟩
  simp only [bestResult, bestOf, keyed, List.filterMap_cons, id, List.filterMap_nil, Py.mapEach, Py.bind_run, e1, e2,
    Py.pure_run, Py.pure_run', Direction.pick, pickMax, List.foldl_cons, List.foldl_nil, (f1.2 b hb).2, Py.unwrap]
  split <;> rfl

theorem bestResult_one {s : σ} {b : R} (hg : V.Good s) (hb : V.Alive s b) :
    ∃ s', bestResult value none b s = (.ok b, s') ∧ V.Follows s s' := by
  obtain ⟨s1, e1, f1⟩ := Valued.eval' hg hb
  refine ⟨s1, ?_, f1⟩
  simp [bestResult, bestOf, keyed, Py.mapEach, Py.bind_run, e1, Direction.pick, pickMax, Py.unwrap]

/-! ## Local search -/

theorem trailing_append (l : List Bool) (b : Bool) : trailing (l ++ [b]) = if b then 0 else trailing l + 1 := by
  cases b <;> simp [trailing]

/-- Length of the current series of unsuccessful rounds. -/
def countOf (c : Nat) (l : List Bool) : Nat := l.foldl (fun c b => if b then 0 else c + 1) c

theorem countOf_zero (l : List Bool) : countOf 0 l = trailing l := by
  induction l using List.reverseRec with
  | nil => rfl
  | append_singleton l b ih => rw [trailing_append, ← ih, countOf, List.foldl_append]; rfl

theorem localSearch_ok [DecidableEq R] {improve : R → Py σ R} {k : Nat}
    (himp : ∀ b s c s1, V.Good s → V.Alive s b → improve b s = (.ok c, s1) → V.Follows s s1 ∧ V.Alive s1 c ∧ c ≠ b)
    {x : R} {s' : σ} :
    ∀ (n : Nat) (b : R) (cnt : Nat) (s : σ), cnt ≤ k → V.Good s → V.Alive s b →
      localSearch improve value k n b cnt s = (.ok x, s') →
      V.Follows s s' ∧ V.Alive s' x ∧ V.val s b ≤ V.val s' x ∧
      ∃ l, V.Rounds improve b s l x s' ∧ countOf cnt l = k ∧ ∀ p q, l = p ++ q → q ≠ [] → countOf cnt p < k := by
  intro n
  induction n with
  | zero => intro b cnt s _ _ _ h; simp [localSearch] at h
  | succ n ih =>
    intro b cnt s hc hg ha h
    rw [localSearch] at h
    by_cases hk : cnt < k
    · rw [if_pos hk] at h
      rw [Py.bind_run] at h
      cases him : improve b s with
      | mk r s1 =>
        rw [him] at h
        cases r with
        | error e => simp at h
        | ok c =>
          obtain ⟨f1, hac, hne⟩ := himp b s c s1 hg ha him
          have hab := (f1.2 b ha)
          obtain ⟨s2, e2, f2⟩ := bestResult_two f1.1 hab.1 hac
          simp only at h
          rw [Py.bind_ok e2] at h
          by_cases hlt : V.val s1 b < V.val s1 c
          · rw [if_pos hlt, if_pos rfl] at h
            obtain ⟨f3, hx, hle, l, hr, hcl, hp⟩ := ih c 0 s2 (Nat.zero_le _) f2.1 (f2.2 c hac).1 h
            refine ⟨(f1.trans f2).trans f3, hx, ?_, true :: l, .better him hlt f2 hr, ?_, ?_⟩
            · rw [(f2.2 c hac).2] at hle
              rw [← hab.2]
              exact le_trans (le_of_lt hlt) hle
            · simpa [countOf] using hcl
            · intro p q e hq
              cases p with
              | nil => simpa [countOf] using hk
              | cons y p =>
                simp only [List.cons_append, List.cons.injEq] at e
                obtain ⟨rfl, e⟩ := e
                simpa [countOf] using hp p q e hq
          · rw [if_neg hlt, if_neg (Ne.symm hne)] at h
            obtain ⟨f3, hx, hle, l, hr, hcl, hp⟩ := ih b (cnt + 1) s2 hk f2.1 (f2.2 b hab.1).1 h
            refine ⟨(f1.trans f2).trans f3, hx, ?_, false :: l, .notBetter him (not_lt.1 hlt) f2 hr, ?_, ?_⟩
            · rw [(f2.2 b hab.1).2, hab.2] at hle
              exact hle
            · simpa [countOf] using hcl
            · intro p q e hq
              cases p with
              | nil => simpa [countOf] using hk
              | cons y p =>
                simp only [List.cons_append, List.cons.injEq] at e
                obtain ⟨rfl, e⟩ := e
                simpa [countOf] using hp p q e hq
    · rw [if_neg hk] at h
      simp only [Py.pure_run, Prod.mk.injEq, Except.ok.injEq] at h
      obtain ⟨rfl, rfl⟩ := h
      refine ⟨.refl V hg, ha, le_refl _, [], .done _ _, ?_, ?_⟩
      · simp only [countOf, List.foldl_nil]; omega
      · intro p q e hq
        have := (List.nil_eq_append_iff.1 e).2
        exact absurd this hq

/-- More fuel does not change the outcome. -/
theorem localSearch_mono [DecidableEq R] {improve : R → Py σ R} {k : Nat} {x : R} {s' : σ} :
    ∀ (n m : Nat) (b : R) (cnt : Nat) (s : σ), n ≤ m → localSearch improve value k n b cnt s = (.ok x, s') →
      localSearch improve value k m b cnt s = (.ok x, s') := by
  intro n
  induction n with
  | zero => intro m b cnt s _ h; simp [localSearch] at h
  | succ n ih =>
    intro m b cnt s hm h
    obtain ⟨m, rfl⟩ : ∃ m', m = m' + 1 := ⟨m - 1, by omega⟩
    rw [localSearch] at h ⊢
    by_cases hk : cnt < k
    · rw [if_pos hk] at h ⊢
      rw [Py.bind_run] at h ⊢
      cases him : improve b s with
      | mk r s1 =>
        rw [him] at h
        cases r with
        | error e => exact h
        | ok c =>
          simp only at h ⊢
          rw [Py.bind_run] at h ⊢
          cases hbr : bestResult value (some b) c s1 with
          | mk r s2 =>
            rw [hbr] at h
            cases r with
            | error e => exact h
            | ok y =>
              simp only at h ⊢
              by_cases hy : y = c
              · rw [if_pos hy] at h ⊢; exact ih m _ _ _ (by omega) h
              · rw [if_neg hy] at h ⊢; exact ih m _ _ _ (by omega) h
    · rw [if_neg hk] at h ⊢; exact h

/-- The loop ends when there are finitely many possible values. -/
theorem localSearch_ends [DecidableEq R] {improve : R → Py σ R} {k : Nat}
    (himp : ∀ b s, V.Good s → V.Alive s b → ∃ c s1, improve b s = (.ok c, s1) ∧ V.Follows s s1 ∧ V.Alive s1 c ∧ c ≠ b)
    (values : Finset (List ℚ)) (hv : ∀ s r, V.Good s → V.Alive s r → V.val s r ∈ values) :
    ∀ (d b0 : Nat) (b : R) (cnt : Nat) (s : σ), (values.filter (V.val s b < ·)).card = d → k - cnt = b0 → V.Good s → V.Alive s b →
      ∃ n x s', localSearch improve value k n b cnt s = (.ok x, s') := by
  intro d
  induction d using Nat.strong_induction_on with
  | _ d ihd =>
    intro b0
    induction b0 with
    | zero =>
      intro b cnt s _ hb _ _
      exact ⟨1, b, s, by rw [localSearch, if_neg (by omega)]; rfl⟩
    | succ b0 ihb =>
      intro b cnt s hd hb hg ha
      obtain ⟨c, s1, him, f1, hac, hne⟩ := himp b s hg ha
      have hab := (f1.2 b ha)
      obtain ⟨s2, e2, f2⟩ := bestResult_two f1.1 hab.1 hac
      by_cases hlt : V.val s1 b < V.val s1 c
      · have hlt' : V.val s b < V.val s2 c := by rw [(f2.2 c hac).2, ← hab.2]; exact hlt
        obtain ⟨n, x, s', h⟩ := ihd (values.filter (V.val s2 c < ·)).card (by
          rw [← hd]
          apply Finset.card_lt_card
          rw [Finset.ssubset_iff_of_subset]
          · refine ⟨V.val s2 c, ?_, by simp⟩
            rw [Finset.mem_filter]
            exact ⟨hv s2 c f2.1 (f2.2 c hac).1, hlt'⟩
          · intro v hv'
            rw [Finset.mem_filter] at hv' ⊢
            exact ⟨hv'.1, lt_trans hlt' hv'.2⟩) (k - 0) c 0 s2 rfl rfl f2.1 (f2.2 c hac).1
        refine ⟨n + 1, x, s', ?_⟩
        rw [localSearch, if_pos (by omega), Py.bind_ok him, Py.bind_ok e2, if_pos hlt, if_pos rfl]
        exact h
      · obtain ⟨n, x, s', h⟩ := ihb b (cnt + 1) s2 (by rw [(f2.2 b hab.1).2, hab.2]; exact hd) (by omega) f2.1 (f2.2 b hab.1).1
        refine ⟨n + 1, x, s', ?_⟩
        rw [localSearch, if_pos (by omega), Py.bind_ok him, Py.bind_ok e2, if_neg hlt, if_neg (Ne.symm hne)]
        exact h

/-! ## Iterative -/

theorem Valued.FirstBest.snoc {s s1 : σ} {rs : List R} {b c : R} (hb : V.FirstBest s rs b)
    (hv : ∀ r ∈ rs, V.val s1 r = V.val s r) :
    V.FirstBest s1 (rs ++ [c]) (if V.val s1 b < V.val s1 c then c else b) := by
  have hbm : b ∈ rs := by
    have := (FirstBest.before (d := .maximization) hb).1
    simp only [List.mem_map, Prod.mk.injEq] at this
    obtain ⟨r, hr, rfl, -⟩ := this
    exact hr
  have hmap : rs.map (fun r => (r, V.val s1 r)) = rs.map fun r => (r, V.val s r) :=
    List.map_congr_left fun r hr => by rw [hv r hr]
  have hle := (FirstBest.before (d := .maximization) hb).2
  unfold Valued.FirstBest at hb ⊢
  rw [List.map_append, hmap]
  by_cases hlt : V.val s1 b < V.val s1 c
  · rw [if_pos hlt]
    refine ⟨rs.map fun r => (r, V.val s r), [], by simp, ?_, by simp⟩
    intro x hx
    rw [hv b hbm] at hlt
    exact lt_of_le_of_lt (hle x hx) hlt
  · rw [if_neg hlt]
    obtain ⟨pre, suf, e, h1, h2⟩ := hb
    rw [hv b hbm] at hlt ⊢
    refine ⟨pre, suf ++ [(c, V.val s1 c)], by rw [e]; simp, h1, ?_⟩
    intro x hx
    rcases List.mem_append.1 hx with hx | hx
    · exact h2 x hx
    · obtain rfl := List.mem_singleton.1 hx
      exact not_lt.1 hlt

theorem Valued.FirstBest.follows {s s1 : σ} {rs : List R} {b : R} (hb : V.FirstBest s rs b) (ha : ∀ r ∈ rs, V.Alive s r)
    (f : V.Follows s s1) : V.FirstBest s1 rs b := by
  have hbm : b ∈ rs := by
    have := (FirstBest.before (d := .maximization) hb).1
    simp only [List.mem_map, Prod.mk.injEq] at this
    obtain ⟨r, hr, rfl, -⟩ := this
    exact hr
  have hmap : rs.map (fun r => (r, V.val s1 r)) = rs.map fun r => (r, V.val s r) :=
    List.map_congr_left fun r hr => by rw [(f.2 r (ha r hr)).2]
  unfold Valued.FirstBest at hb ⊢
  rw [hmap, (f.2 b (ha b hbm)).2]
  exact hb

theorem Valued.FirstBest.mem {s : σ} {rs : List R} {b : R} (hb : V.FirstBest s rs b) : b ∈ rs := by
  have := (FirstBest.before (d := .maximization) hb).1
  simp only [List.mem_map, Prod.mk.injEq] at this
  obtain ⟨r, hr, rfl, -⟩ := this
  exact hr

theorem Valued.FirstBest.le {s : σ} {rs : List R} {b : R} (hb : V.FirstBest s rs b) {r : R} (hr : r ∈ rs) :
    V.val s r ≤ V.val s b :=
  (FirstBest.before (d := .maximization) hb).2 (r, V.val s r) (List.mem_map.2 ⟨r, hr, rfl⟩)

/-- One comparison of the iterative loop. -/
theorem bestResult_next {s : σ} {past : List R} {best : Option R} {c : R} (hg : V.Good s)
    (hbest : (past = [] ∧ best = none) ∨ ∃ b, best = some b ∧ V.FirstBest s past b)
    (ha : ∀ r ∈ past, V.Alive s r) (hc : V.Alive s c) :
    ∃ b' s', bestResult value best c s = (.ok b', s') ∧ V.Follows s s' ∧ V.FirstBest s' (past ++ [c]) b' := by
  rcases hbest with ⟨rfl, rfl⟩ | ⟨b, rfl, hb⟩
  · obtain ⟨s', e, f⟩ := bestResult_one hg hc
    exact ⟨c, s', e, f, [], [], by simp, by simp, by simp⟩
  · obtain ⟨s', e, f⟩ := bestResult_two hg (ha b hb.mem) hc
    refine ⟨_, s', e, f, ?_⟩
    have := (hb.snoc (s1 := s) (c := c) (fun _ _ => rfl)).follows (by
      intro r hr
      rcases List.mem_append.1 hr with hr | hr
      · exact ha r hr
      · obtain rfl := List.mem_singleton.1 hr; exact hc) f
    exact this

theorem iterativeLoop_ok {run : Nat → Option R → Py σ R} {restart : Bool} {seeds : Nat → Nat}
    (P : R → Prop)
    (hrun : ∀ seed initial s x s', V.Good s → (∀ r, initial = some r → V.Alive s r ∧ P r) → run seed initial s = (.ok x, s') →
      V.Follows s s' ∧ V.Alive s' x ∧ P x) {out : Option R} {s' : σ} :
    ∀ (n : Nat) (past : List R) (best : Option R) (s : σ), V.Good s → (∀ r ∈ past, V.Alive s r ∧ P r) →
      ((past = [] ∧ best = none) ∨ ∃ b, best = some b ∧ V.FirstBest s past b) →
      iterativeLoop run value restart seeds n past.length best s = (.ok out, s') →
      ∃ rs, rs.length = n ∧ V.Episodes run restart seeds past s rs s' ∧ V.Follows s s' ∧ (∀ r ∈ past ++ rs, V.Alive s' r ∧ P r) ∧
        ((past ++ rs = [] ∧ out = none) ∨ ∃ b, out = some b ∧ V.FirstBest s' (past ++ rs) b) := by
  intro n
  induction n with
  | zero =>
    intro past best s hg ha hb h
    simp only [iterativeLoop, Py.pure_run, Prod.mk.injEq, Except.ok.injEq] at h
    obtain ⟨rfl, rfl⟩ := h
    exact ⟨[], rfl, .done _ _, .refl V hg, by simpa using ha, by simpa using hb⟩
  | succ n ih =>
    intro past best s hg ha hb h
    rw [iterativeLoop, Py.bind_run] at h
    cases hr : run (seeds past.length) (if restart then none else best) s with
    | mk r s1 =>
      rw [hr] at h
      cases r with
      | error e => simp at h
      | ok c =>
        simp only at h
        obtain ⟨f1, hac, hpc⟩ := hrun _ _ s c s1 hg (by
          intro r e
          cases restart with
          | true => simp at e
          | false =>
            simp only [Bool.false_eq_true, if_false] at e
            rcases hb with ⟨_, e'⟩ | ⟨b, e', hb⟩
            · rw [e'] at e; cases e
            · rw [e'] at e; cases e; exact ha _ hb.mem) hr
        have hb1 : (past = [] ∧ best = none) ∨ ∃ b, best = some b ∧ V.FirstBest s1 past b := by
          rcases hb with h0 | ⟨b, e, hb⟩
          · exact .inl h0
          · exact .inr ⟨b, e, hb.follows (fun r hr => (ha r hr).1) f1⟩
        have ha1 : ∀ r ∈ past, V.Alive s1 r := fun r hr => (f1.2 r (ha r hr).1).1
        obtain ⟨b', s2, e2, f2, hb'⟩ := bestResult_next f1.1 hb1 ha1 hac
        rw [Py.bind_ok e2] at h
        have hlen : past.length + 1 = (past ++ [c]).length := by simp
        rw [hlen] at h
        obtain ⟨rs, hl, hep, f3, hal, hout⟩ := ih (past ++ [c]) (some b') s2 f2.1 (by
          intro r hr
          rcases List.mem_append.1 hr with hr | hr
          · exact ⟨(f2.2 r (ha1 r hr)).1, (ha r hr).2⟩
          · obtain rfl := List.mem_singleton.1 hr; exact ⟨(f2.2 _ hac).1, hpc⟩) (.inr ⟨b', rfl, hb'⟩) h
        refine ⟨c :: rs, by simp [hl], .next ?_ ?_ hr f2 hep, (f1.trans f2).trans f3, by simpa using hal, by simpa using hout⟩
        · rintro (rfl | rfl)
          · rfl
          · rcases hb with ⟨_, rfl⟩ | ⟨b, rfl, hb⟩
            · simp
            · exact absurd hb.mem (by simp)
        · rintro rfl hne
          rcases hb with ⟨e, _⟩ | ⟨b, rfl, hb⟩
          · exact absurd e hne
          · exact ⟨b, rfl, hb⟩

/-! ## Sequential -/

theorem sequentialLoop_ok {out : Option R} {s' : σ} :
    ∀ (stages : List (Option R → Py σ R)) (initial : Option R) (s : σ), sequentialLoop stages initial s = (.ok out, s') →
      ∃ rs states, Threaded stages initial s rs states s' ∧ out = if stages = [] then initial else rs.getLast? := by
  intro stages
  induction stages with
  | nil =>
    intro initial s h
    simp only [sequentialLoop, Py.pure_run, Prod.mk.injEq, Except.ok.injEq] at h
    obtain ⟨rfl, rfl⟩ := h
    exact ⟨[], [s], ⟨rfl, rfl, rfl, rfl, by intro i hi; simp at hi⟩, by simp⟩
  | cons stage stages ih =>
    intro initial s h
    rw [sequentialLoop, Py.bind_run] at h
    cases hr : stage initial s with
    | mk r s1 =>
      rw [hr] at h
      cases r with
      | error e => simp at h
      | ok c =>
        simp only at h
        obtain ⟨rs, states, ht, e⟩ := ih (some c) s1 h
        refine ⟨c :: rs, s :: states, ⟨by simp [ht.results], by simp [ht.states_length], rfl, by simpa using ht.last, ?_⟩, ?_⟩
        · intro i hi
          cases i with
          | zero => exact ⟨s, s1, c, rfl, by simpa using ht.first, rfl, by simpa using hr⟩
          | succ i =>
            obtain ⟨t, t', r, h1, h2, h3, h4⟩ := ht.step i (by simpa using hi)
            refine ⟨t, t', r, by simpa using h1, by simpa using h2, by simpa using h3, ?_⟩
            simp only [List.getElem_cons_succ, Nat.add_eq_zero_iff, one_ne_zero, and_false, if_false, Nat.add_sub_cancel]
            rw [← h4]
            cases i with
            | zero => simp
            | succ i => simp
        · rw [if_neg (by simp), e]
          cases stages with
          | nil =>
            have : rs = [] := List.eq_nil_of_length_eq_zero (by simpa using ht.results)
            simp [this]
          | cons a l =>
            rw [if_neg (by simp)]
            have : rs ≠ [] := by
              intro h0
              have := ht.results
              rw [h0] at this
              simp at this
            obtain ⟨y, ys, rfl⟩ := List.exists_cons_of_ne_nil this
            simp

theorem sequentialLoop_not_worse {out : Option R} {s' : σ} :
    ∀ (stages : List (Option R → Py σ R)) (r0 : R) (s : σ), (∀ st ∈ stages, ∀ r, V.NotWorse r (st (some r))) →
      V.Good s → V.Alive s r0 → sequentialLoop stages (some r0) s = (.ok out, s') →
      ∃ x, out = some x ∧ V.Follows s s' ∧ V.Alive s' x ∧ V.val s r0 ≤ V.val s' x := by
  intro stages
  induction stages with
  | nil =>
    intro r0 s _ hg ha h
    simp only [sequentialLoop, Py.pure_run, Prod.mk.injEq, Except.ok.injEq] at h
    obtain ⟨rfl, rfl⟩ := h
    exact ⟨r0, rfl, .refl V hg, ha, le_refl _⟩
  | cons stage stages ih =>
    intro r0 s hst hg ha h
    rw [sequentialLoop, Py.bind_run] at h
    cases hr : stage (some r0) s with
    | mk r s1 =>
      rw [hr] at h
      cases r with
      | error e => simp at h
      | ok c =>
        simp only at h
        obtain ⟨f1, hac, hle⟩ := hst stage (by simp) r0 s c s1 hg ha hr
        obtain ⟨x, rfl, f2, hax, hle2⟩ := ih c s1 (fun st hs => hst st (by simp [hs])) f1.1 hac h
        exact ⟨x, rfl, f1.trans f2, hax, le_trans hle hle2⟩

end Jinete
