import Verif.Proofs.SearchRuns

/-!
# When search loops around different computations do the same

If the inner computations return the same on every state that occurs, so do the loops around them.
-/

set_option autoImplicit false

namespace Jinete

theorem bind_agree {σ α β : Type} {x y : Py σ α} {f g : α → Py σ β} {s : σ} (hx : x s = y s)
    (h : ∀ a s', y s = (.ok a, s') → f a s' = g a s') : (x >>= f) s = (y >>= g) s := by
  rw [Py.bind_run, Py.bind_run, hx]
  rcases e : y s with ⟨er | a, s'⟩
  · rfl
  · exact h a s' e

/-- Loops whose passes agree wherever the second one gets. -/
theorem forEach_agree {σ α : Type} {f g : α → Py σ Unit} (I : σ → Prop) {X : Err → Prop} : ∀ {l : List α} {s : σ}, I s →
    (∀ x s, x ∈ l → I s → f x s = g x s ∧ Meets (g x) s (fun _ s' => I s') X) → Py.forEach l f s = Py.forEach l g s
  | [], _, _, _ => rfl
  | x :: l, s, hI, h => by
    show (f x >>= fun _ => Py.forEach l f) s = (g x >>= fun _ => Py.forEach l g) s
    obtain ⟨h1, h2⟩ := h x s (by simp) hI
    refine bind_agree h1 fun _ s' e => ?_
    exact forEach_agree I (X := X) (h2.ok e) fun y s hy hs => h y s (by simp [hy]) hs

variable {σ R : Type} {value : R → Py σ (List ℚ)} {V : Valued σ R value} {X : Err → Prop}

/-- In state `s` both computations do the same, and the second one is safe. -/
def Valued.Agree (V : Valued σ R value) (X : Err → Prop) (s : σ) (m' m : Py σ R) : Prop := m' s = m s ∧ V.Safe X s m

theorem logged_agree {log : R → Py σ Unit} (hlog : ∀ r s, V.Good s → V.Alive s r → Meets (log r) s (fun _ s' => V.Follows s s') X)
    {m' m : Py σ R} {s : σ} (h : V.Agree X s m' m) : V.Agree X s (logged log m') (logged log m) :=
  ⟨bind_agree h.1 fun _ _ _ => rfl, logged_safe hlog h.2⟩

theorem iterative_agree {run' run : Nat → Option R → Py σ R} {restart : Bool} {seeds : Nat → Nat} {episodes : Nat} (P : σ → Prop)
    (hP : ∀ s s', V.Follows s s' → P s → P s')
    (hrun : ∀ seed initial s, V.Good s → P s → (∀ r, initial = some r → V.Alive s r) → V.Agree X s (run' seed initial) (run seed initial))
    {s : σ} (hg : V.Good s) (hp : P s) (he : 0 < episodes) :
    V.Agree X s (iterative run' value restart seeds episodes) (iterative run value restart seeds episodes) := by
  refine ⟨?_, iterative_safe P hP (fun seed initial s hg hp ha => (hrun seed initial s hg hp ha).2) hg hp he⟩
  have key : ∀ (n i : Nat) (best : Option R) (s : σ), V.Good s → P s → (∀ r, best = some r → V.Alive s r) →
      iterativeLoop run' value restart seeds n i best s = iterativeLoop run value restart seeds n i best s := by
    intro n
    induction n with
    | zero => intro i best s _ _ _; rfl
    | succ n ih =>
      intro i best s hg hp ha
      obtain ⟨h1, h2⟩ := hrun (seeds i) (if restart then none else best) s hg hp (by
        intro r e
        split at e
        · cases e
        · exact ha r e)
      refine bind_agree h1 fun c s1 e1 => ?_
      obtain ⟨f1, hc⟩ := h2.ok e1
      refine bind_agree rfl fun b s2 e2 => ?_
      obtain ⟨f2, hb⟩ := (bestResult_safe (X := X) f1.1 (fun r e => (f1.2 r (ha r e)).1) hc).ok e2
      exact ih (i + 1) (some b) s2 f2.1 (hP _ _ f2 (hP _ _ f1 hp)) (by rintro r ⟨⟩; exact hb)
  exact bind_agree (key episodes 0 none s hg hp (by simp)) fun _ _ _ => rfl

/-- The stages agree one by one. -/
inductive StagesAgree (V : Valued σ R value) (X : Err → Prop) : List (Option R → Py σ R) → List (Option R → Py σ R) → Prop
  | nil : StagesAgree V X [] []
  | cons {st' st l' l} : (∀ s r, V.Good s → V.Alive s r → V.Agree X s (st' (some r)) (st (some r))) → StagesAgree V X l' l →
      StagesAgree V X (st' :: l') (st :: l)

theorem StagesAgree.safe {l' l : List (Option R → Py σ R)} (h : StagesAgree V X l' l) :
    ∀ st ∈ l, ∀ s r, V.Good s → V.Alive s r → V.Safe X s (st (some r)) := by
  induction h with
  | nil => simp
  | cons h _ ih =>
    intro st hst
    rcases List.mem_cons.1 hst with rfl | hst
    · exact fun s r hg ha => (h s r hg ha).2
    · exact ih st hst

theorem sequential_agree {l' l : List (Option R → Py σ R)} (h : StagesAgree V X l' l) {s : σ} {r : R} (hg : V.Good s) (hr : V.Alive s r) :
    V.Agree X s (sequential l' (some r)) (sequential l (some r)) := by
  refine ⟨bind_agree ?_ fun _ _ _ => rfl, sequential_safe h.safe hg hr⟩
  induction h generalizing s r with
  | nil => rfl
  | cons h _ ih =>
    refine bind_agree (h s r hg hr).1 fun c s1 e1 => ?_
    obtain ⟨f1, hc⟩ := (h s r hg hr).2.ok e1
    exact ih f1.1 hc

theorem grasp_agree {log : R → Py σ Unit} {first' first : Nat → Py σ R} {stages' stages : Nat → List (Option R → Py σ R)} {seeds : Nat → Nat}
    {draw draw' : Nat → Nat → Nat} {episodes firstEpisodes : Nat}
    (hlog : ∀ r s, V.Good s → V.Alive s r → Meets (log r) s (fun _ s' => V.Follows s s') X)
    (hfirst : ∀ seed s, V.Good s → V.Agree X s (first' seed) (first seed)) (hst : ∀ seed, StagesAgree V X (stages' seed) (stages seed))
    {s : σ} (hg : V.Good s) (he : 0 < episodes) (hf : 0 < firstEpisodes) :
    V.Agree X s (grasp log first' stages' value seeds draw draw' episodes firstEpisodes)
      (grasp log first stages value seeds draw draw' episodes firstEpisodes) := by
  refine logged_agree hlog (iterative_agree (fun _ => True) (fun _ _ _ _ => trivial) ?_ hg trivial he)
  intro seed initial s hg _ _
  refine logged_agree hlog ?_
  have hfirsts : V.Agree X s (logged log (iterative (fun s _ => first' s) value true (draw seed) firstEpisodes))
      (logged log (iterative (fun s _ => first s) value true (draw seed) firstEpisodes)) :=
    logged_agree hlog (iterative_agree (fun _ => True) (fun _ _ _ _ => trivial) (fun seed _ s hg _ _ => hfirst seed s hg) hg trivial hf)
  have hsecond : ∀ f s1, V.Good s1 → V.Alive s1 f →
      V.Agree X s1 (logged log (iterative (fun s best => logged log (sequential (stages' s) (best.or (some f)))) value false (draw' seed) 3))
        (logged log (iterative (fun s best => logged log (sequential (stages s) (best.or (some f)))) value false (draw' seed) 3)) := by
    intro f s1 h1 ha
    refine logged_agree hlog (iterative_agree (fun s => V.Alive s f) (fun _ _ g h => (g.2 f h).1) ?_ h1 ha (by omega))
    intro seed best s hg hp hb
    refine logged_agree hlog ?_
    cases best with
    | none => exact sequential_agree (hst seed) hg hp
    | some b => exact sequential_agree (hst seed) hg (hb b rfl)
  unfold sequential
  constructor
  · refine bind_agree ?_ fun _ _ _ => rfl
    unfold sequentialLoop
    refine bind_agree hfirsts.1 fun f s1 e1 => ?_
    obtain ⟨f1, h1⟩ := hfirsts.2.ok e1
    unfold sequentialLoop
    exact bind_agree (hsecond f s1 f1.1 h1).1 fun _ _ _ => rfl
  · unfold sequentialLoop
    refine Meets.bind (Q := fun o s' => ∃ b, o = some b ∧ V.Follows s s' ∧ V.Alive s' b) ?_ ?_
    · refine Meets.bind hfirsts.2 ?_
      rintro f s1 ⟨f1, h1⟩
      unfold sequentialLoop
      refine Meets.bind (hsecond f s1 f1.1 h1).2 ?_
      rintro b s2 ⟨f2, h2⟩
      exact ⟨b, rfl, f1.trans f2, h2⟩
    · rintro o s1 ⟨b, rfl, f, hb⟩
      exact ⟨f, hb⟩

/-- The local search does the same with passes that agree. -/
theorem localSearch_agree [DecidableEq R] {improve' improve : R → Py σ R} {k : Nat}
    (himp : ∀ b s, V.Good s → V.Alive s b → V.Agree X s (improve' b) (improve b)) :
    ∀ (n : Nat) (b : R) (cnt : Nat) (s : σ), V.Good s → V.Alive s b →
      localSearch improve' value k n b cnt s = localSearch improve value k n b cnt s := by
  intro n
  induction n with
  | zero => intro b cnt s _ _; rfl
  | succ n ih =>
    intro b cnt s hg ha
    rw [localSearch, localSearch]
    by_cases hk : cnt < k
    · rw [if_pos hk, if_pos hk]
      refine bind_agree (himp b s hg ha).1 fun c s1 e1 => ?_
      obtain ⟨f1, hac⟩ := (himp b s hg ha).2.ok e1
      refine bind_agree rfl fun b' s2 e2 => ?_
      obtain ⟨f2, hb'⟩ := (bestResult_safe (X := X) f1.1 (by rintro r ⟨⟩; exact (f1.2 b ha).1) hac).ok e2
      split
      · exact ih b' 0 s2 f2.1 hb'
      · exact ih b' (cnt + 1) s2 f2.1 hb'
    · rw [if_neg hk, if_neg hk]

end Jinete
