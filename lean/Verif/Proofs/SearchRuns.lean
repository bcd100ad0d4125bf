import Verif.Props.Search
import Verif.Proofs.Meets

/-!
# When the search loops return

If the inner computations return results that exist, or raise errors of a given kind, so do the loops around them. A
number of rounds after which the local search has ended for certain.
-/

set_option autoImplicit false

namespace Jinete

variable {σ R : Type} {value : R → Py σ (List ℚ)} {V : Valued σ R value} {X : Err → Prop}

/-- The computation, run in state `s`, returns an existing result and damages none, or raises one of the errors `X`. -/
def Valued.Safe (V : Valued σ R value) (X : Err → Prop) (s : σ) (m : Py σ R) : Prop :=
  Meets m s (fun x s' => V.Follows s s' ∧ V.Alive s' x) X

theorem logged_safe {log : R → Py σ Unit} (hlog : ∀ r s, V.Good s → V.Alive s r → Meets (log r) s (fun _ s' => V.Follows s s') X)
    {m : Py σ R} {s : σ} (h : V.Safe X s m) : V.Safe X s (logged log m) := by
  refine Meets.bind h ?_
  rintro r s1 ⟨f1, h1⟩
  refine Meets.bind (hlog r s1 f1.1 h1) ?_
  rintro _ s2 f2
  exact ⟨f1.trans f2, (f2.2 r h1).1⟩

theorem bestResult_safe {s : σ} {best : Option R} {c : R} (hg : V.Good s) (hb : ∀ r, best = some r → V.Alive s r) (hc : V.Alive s c) :
    V.Safe X s (bestResult value best c) := by
  cases best with
  | none =>
    obtain ⟨s2, e2, f2⟩ := bestResult_one hg hc
    exact .of_ok e2 ⟨f2, (f2.2 c hc).1⟩
  | some b =>
    have hb := hb b rfl
    obtain ⟨s2, e2, f2⟩ := bestResult_two hg hb hc
    refine .of_ok e2 ⟨f2, ?_⟩
    split
    · exact (f2.2 c hc).1
    · exact (f2.2 b hb).1

/-- `P` is what the inner algorithm needs besides; it must survive. -/
theorem iterative_safe {run : Nat → Option R → Py σ R} {restart : Bool} {seeds : Nat → Nat} {episodes : Nat} (P : σ → Prop)
    (hP : ∀ s s', V.Follows s s' → P s → P s')
    (hrun : ∀ seed initial s, V.Good s → P s → (∀ r, initial = some r → V.Alive s r) → V.Safe X s (run seed initial))
    {s : σ} (hg : V.Good s) (hp : P s) (he : 0 < episodes) : V.Safe X s (iterative run value restart seeds episodes) := by
  have key : ∀ (n i : Nat) (best : Option R) (s : σ), V.Good s → P s → (∀ r, best = some r → V.Alive s r) → (0 < n ∨ best ≠ none) →
      Meets (iterativeLoop run value restart seeds n i best) s (fun o s' => ∃ b, o = some b ∧ V.Follows s s' ∧ V.Alive s' b) X := by
    intro n
    induction n with
    | zero =>
      intro i best s hg _ ha hb
      obtain ⟨b, rfl⟩ := Option.ne_none_iff_exists'.1 (hb.resolve_left (by omega))
      exact ⟨b, rfl, .refl V hg, ha b rfl⟩
    | succ n ih =>
      intro i best s hg hp ha _
      refine Meets.bind (hrun (seeds i) (if restart then none else best) s hg hp (by
        intro r e
        split at e
        · cases e
        · exact ha r e)) ?_
      rintro c s1 ⟨f1, hc⟩
      refine Meets.bind (bestResult_safe f1.1 (fun r e => (f1.2 r (ha r e)).1) hc) ?_
      rintro b s2 ⟨f2, hb⟩
      refine (ih (i + 1) (some b) s2 f2.1 (hP _ _ f2 (hP _ _ f1 hp)) (by rintro r ⟨⟩; exact hb) (.inr (by simp))).mono ?_
      rintro o s3 ⟨b', rfl, f3, hb'⟩
      exact ⟨b', rfl, (f1.trans f2).trans f3, hb'⟩
  refine Meets.bind (key episodes 0 none s hg hp (by simp) (.inl he)) ?_
  rintro o s1 ⟨b, rfl, f, hb⟩
  exact ⟨f, hb⟩

theorem sequential_safe {stages : List (Option R → Py σ R)}
    (hst : ∀ st ∈ stages, ∀ s r, V.Good s → V.Alive s r → V.Safe X s (st (some r))) {s : σ} {r : R} (hg : V.Good s) (hr : V.Alive s r) :
    V.Safe X s (sequential stages (some r)) := by
  have key : ∀ (l : List (Option R → Py σ R)) (s : σ) (r : R),
      (∀ st ∈ l, ∀ s r, V.Good s → V.Alive s r → V.Safe X s (st (some r))) → V.Good s → V.Alive s r →
      Meets (sequentialLoop l (some r)) s (fun o s' => ∃ b, o = some b ∧ V.Follows s s' ∧ V.Alive s' b) X := by
    intro l
    induction l with
    | nil => intro s r _ hg hr; exact ⟨r, rfl, .refl V hg, hr⟩
    | cons st l ih =>
      intro s r h hg hr
      refine Meets.bind (h st (by simp) s r hg hr) ?_
      rintro c s1 ⟨f1, hc⟩
      refine (ih s1 c (fun st hst => h st (by simp [hst])) f1.1 hc).mono ?_
      rintro o s2 ⟨b, rfl, f2, hb⟩
      exact ⟨b, rfl, f1.trans f2, hb⟩
  refine Meets.bind (key stages s r hst hg hr) ?_
  rintro o s1 ⟨b, rfl, f, hb⟩
  exact ⟨f, hb⟩

theorem grasp_safe {log : R → Py σ Unit} {first : Nat → Py σ R} {stages : Nat → List (Option R → Py σ R)} {seeds : Nat → Nat}
    {draw draw' : Nat → Nat → Nat} {episodes firstEpisodes : Nat}
    (hlog : ∀ r s, V.Good s → V.Alive s r → Meets (log r) s (fun _ s' => V.Follows s s') X)
    (hfirst : ∀ seed s, V.Good s → V.Safe X s (first seed))
    (hst : ∀ seed, ∀ st ∈ stages seed, ∀ s r, V.Good s → V.Alive s r → V.Safe X s (st (some r)))
    {s : σ} (hg : V.Good s) (he : 0 < episodes) (hf : 0 < firstEpisodes) :
    V.Safe X s (grasp log first stages value seeds draw draw' episodes firstEpisodes) := by
  refine logged_safe hlog (iterative_safe (fun _ => True) (fun _ _ _ _ => trivial) ?_ hg trivial he)
  intro seed initial s hg _ _
  refine logged_safe hlog ?_
  unfold sequential sequentialLoop
  refine Meets.bind (Q := fun o s' => ∃ b, o = some b ∧ V.Follows s s' ∧ V.Alive s' b) ?_ ?_
  · refine Meets.bind (logged_safe hlog (iterative_safe (fun _ => True) (fun _ _ _ _ => trivial)
      (fun seed _ s hg _ _ => hfirst seed s hg) hg trivial hf)) ?_
    rintro f s1 ⟨f1, h1⟩
    unfold sequentialLoop
    refine Meets.bind (logged_safe hlog (iterative_safe (fun s => V.Alive s f) (fun _ _ g h => (g.2 f h).1) ?_ f1.1 h1 (by omega))) ?_
    · intro seed best s hg hp hb
      refine logged_safe hlog ?_
      cases best with
      | none => exact sequential_safe (hst seed) hg hp
      | some b => exact sequential_safe (hst seed) hg (hb b rfl)
    · rintro b s2 ⟨f2, h2⟩
      exact ⟨b, rfl, f1.trans f2, h2⟩
  · rintro o s1 ⟨b, rfl, f, hb⟩
    exact ⟨f, hb⟩

/-- When the passes return, the local search returns or runs out of rounds. -/
theorem localSearch_safe [DecidableEq R] {improve : R → Py σ R} {k : Nat}
    (himp : ∀ b s, V.Good s → V.Alive s b → ∃ c s1, improve b s = (.ok c, s1) ∧ V.Follows s s1 ∧ V.Alive s1 c ∧ c ≠ b) :
    ∀ (n : Nat) (b : R) (cnt : Nat) (s : σ), V.Good s → V.Alive s b → V.Safe (· = .outOfFuel) s (localSearch improve value k n b cnt) := by
  intro n
  induction n with
  | zero => intro b cnt s _ _; exact rfl
  | succ n ih =>
    intro b cnt s hg ha
    rw [localSearch]
    by_cases hk : cnt < k
    · rw [if_pos hk]
      obtain ⟨c, s1, him, f1, hac, _⟩ := himp b s hg ha
      refine Meets.bind (.of_ok him ⟨f1, hac⟩ : Meets _ s (fun x s' => V.Follows s s' ∧ V.Alive s' x) _) ?_
      rintro c s1 ⟨f1, hac⟩
      refine Meets.bind (bestResult_safe f1.1 (by rintro r ⟨⟩; exact (f1.2 b ha).1) hac) ?_
      rintro b' s2 ⟨f2, hb'⟩
      have g := f1.trans f2
      split
      · exact (ih b' 0 s2 f2.1 hb').mono fun _ _ h => ⟨g.trans h.1, h.2⟩
      · exact (ih b' (cnt + 1) s2 f2.1 hb').mono fun _ _ h => ⟨g.trans h.1, h.2⟩
    · rw [if_neg hk]
      exact ⟨.refl V hg, ha⟩

/-- Rounds after which the local search has ended: at most `threshold + 1` per possible value. -/
theorem localSearch_bound [DecidableEq R] {improve : R → Py σ R} {k : Nat}
    (himp : ∀ b s, V.Good s → V.Alive s b → ∃ c s1, improve b s = (.ok c, s1) ∧ V.Follows s s1 ∧ V.Alive s1 c ∧ c ≠ b)
    (values : Finset (List ℚ)) (hv : ∀ s r, V.Good s → V.Alive s r → V.val s r ∈ values) :
    ∀ (n : Nat) (b : R) (cnt : Nat) (s : σ), V.Good s → V.Alive s b →
      (values.filter (V.val s b < ·)).card * (k + 1) + (k - cnt) + 1 ≤ n →
      ∃ x s', localSearch improve value k n b cnt s = (.ok x, s') := by
  intro n
  induction n with
  | zero => intro b cnt s _ _ h; omega
  | succ n ih =>
    intro b cnt s hg ha hn
    by_cases hk : cnt < k
    · obtain ⟨c, s1, him, f1, hac, hne⟩ := himp b s hg ha
      have hab := f1.2 b ha
      obtain ⟨s2, e2, f2⟩ := bestResult_two f1.1 hab.1 hac
      by_cases hlt : V.val s1 b < V.val s1 c
      · have hlt' : V.val s b < V.val s2 c := by rw [(f2.2 c hac).2, ← hab.2]; exact hlt
        have hcard : (values.filter (V.val s2 c < ·)).card < (values.filter (V.val s b < ·)).card := by
          apply Finset.card_lt_card
          rw [Finset.ssubset_iff_of_subset]
          · refine ⟨V.val s2 c, ?_, by simp⟩
            rw [Finset.mem_filter]
            exact ⟨hv s2 c f2.1 (f2.2 c hac).1, hlt'⟩
          · intro v hv'
            rw [Finset.mem_filter] at hv' ⊢
            exact ⟨hv'.1, lt_trans hlt' hv'.2⟩
        have hmul := Nat.mul_le_mul_right (k + 1) (Nat.succ_le_of_lt hcard)
        rw [Nat.succ_mul] at hmul
        obtain ⟨x, s', h⟩ := ih c 0 s2 f2.1 (f2.2 c hac).1 (by omega)
        refine ⟨x, s', ?_⟩
        rw [localSearch, if_pos hk, Py.bind_ok him, Py.bind_ok e2, if_pos hlt, if_pos rfl]
        exact h
      · obtain ⟨x, s', h⟩ := ih b (cnt + 1) s2 f2.1 (f2.2 b hab.1).1 (by rw [(f2.2 b hab.1).2, hab.2]; omega)
        refine ⟨x, s', ?_⟩
        rw [localSearch, if_pos hk, Py.bind_ok him, Py.bind_ok e2, if_neg hlt, if_neg (Ne.symm hne)]
        exact h
    · exact ⟨b, s, by rw [localSearch, if_neg hk]; rfl⟩

/-- The same, not depending on the initial result. -/
theorem localSearch_bound_all [DecidableEq R] {improve : R → Py σ R} {k : Nat}
    (himp : ∀ b s, V.Good s → V.Alive s b → ∃ c s1, improve b s = (.ok c, s1) ∧ V.Follows s s1 ∧ V.Alive s1 c ∧ c ≠ b)
    (values : Finset (List ℚ)) (hv : ∀ s r, V.Good s → V.Alive s r → V.val s r ∈ values) {n : Nat} {b : R} {s : σ} (hg : V.Good s)
    (ha : V.Alive s b) (hn : values.card * (k + 1) + k + 1 ≤ n) : ∃ x s', localSearch improve value k n b 0 s = (.ok x, s') := by
  refine localSearch_bound himp values hv n b 0 s hg ha ?_
  have := Nat.mul_le_mul_right (k + 1) (Finset.card_filter_le values (V.val s b < ·))
  omega

end Jinete
