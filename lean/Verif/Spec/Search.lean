import Verif.Spec.Value

/-!
# Specification: results with values in a changing state, and what the search loops do
-/

set_option autoImplicit false

namespace Jinete

/-- What the loops need to know about results: which exist in a state, what their values are, and that evaluating
the objective of one reports its value and leaves the values of all existing results alone. -/
structure Valued (σ R : Type) (value : R → Py σ (List ℚ)) where
  /-- the state is consistent -/
  Good : σ → Prop
  /-- the result exists -/
  Alive : σ → R → Prop
  /-- its objective value -/
  val : σ → R → List ℚ
  eval : ∀ s r, Good s → Alive s r → ∃ s', value r s = (.ok (val s r), s') ∧ Good s' ∧
    ∀ x, Alive s x → Alive s' x ∧ val s' x = val s x

variable {σ R : Type} {value : R → Py σ (List ℚ)} (V : Valued σ R value)

/-- `s'` follows `s`: existing results still exist and kept their value. -/
def Valued.Follows (s s' : σ) : Prop :=
  V.Good s' ∧ ∀ x, V.Alive s x → V.Alive s' x ∧ V.val s' x = V.val s x

/-- A computation of a result: whenever it returns, the result exists and older results kept their value. -/
def Valued.Yields (m : Py σ R) : Prop :=
  ∀ s x s', V.Good s → m s = (.ok x, s') → V.Follows s s' ∧ V.Alive s' x

/-- A computation that, whenever it returns, returns nothing worse than `r`. -/
def Valued.NotWorse (r : R) (m : Py σ R) : Prop :=
  ∀ s x s', V.Good s → V.Alive s r → m s = (.ok x, s') → V.Follows s s' ∧ V.Alive s' x ∧ V.val s r ≤ V.val s' x

/-- `b` is the first of the results with the largest value. -/
def Valued.FirstBest (s : σ) (rs : List R) (b : R) : Prop :=
  FirstMax (rs.map fun r => (r, V.val s r)) (b, V.val s b)

/-- Rounds of a local search that starts with result `b` in state `s` and holds `x` in state `s'` at the end: a round
builds a result from the one held; if that has a larger value it is held from then on (`true`), otherwise it is
forgotten (`false`). -/
inductive Valued.Rounds (improve : R → Py σ R) : R → σ → List Bool → R → σ → Prop
  | done (b : R) (s : σ) : Rounds improve b s [] b s
  | better {b c x : R} {s s1 s2 s' : σ} {l : List Bool} (ran : improve b s = (.ok c, s1)) (lt : V.val s1 b < V.val s1 c)
      (f : V.Follows s1 s2) (rest : Rounds improve c s2 l x s') : Rounds improve b s (true :: l) x s'
  | notBetter {b c x : R} {s s1 s2 s' : σ} {l : List Bool} (ran : improve b s = (.ok c, s1))
      (le : V.val s1 c ≤ V.val s1 b) (f : V.Follows s1 s2) (rest : Rounds improve b s2 l x s') :
      Rounds improve b s (false :: l) x s'

/-- Number of unsuccessful rounds at the end. -/
def trailing (l : List Bool) : Nat := (l.reverse.takeWhile fun b => !b).length

/-- Episodes after those that yielded `past`: episode `i` runs with the `i`-th seed and, unless restarting, from the
first best result so far. -/
inductive Valued.Episodes (run : Nat → Option R → Py σ R) (restart : Bool) (seeds : Nat → Nat) :
    List R → σ → List R → σ → Prop
  | done (past : List R) (s : σ) : Episodes run restart seeds past s [] s
  | next {past rs : List R} {initial : Option R} {c : R} {s s1 s2 s' : σ}
      (fresh : restart = true ∨ past = [] → initial = none)
      (best : restart = false → past ≠ [] → ∃ b, initial = some b ∧ V.FirstBest s past b)
      (ran : run (seeds past.length) initial s = (.ok c, s1)) (f : V.Follows s1 s2)
      (rest : Episodes run restart seeds (past ++ [c]) s2 rs s') : Episodes run restart seeds past s (c :: rs) s'

/-- The stages run one after the other: stage `i` starts from the result of the one before and yields `rs[i]`;
`states[i]` is the state before it. -/
structure Threaded (stages : List (Option R → Py σ R)) (initial : Option R) (s : σ) (rs : List R) (states : List σ)
    (s' : σ) : Prop where
  results : rs.length = stages.length
  states_length : states.length = stages.length + 1
  first : states[0]? = some s
  last : states[stages.length]? = some s'
  step : ∀ i (hi : i < stages.length), ∃ t t' r, states[i]? = some t ∧ states[i + 1]? = some t' ∧ rs[i]? = some r ∧
    stages[i] (if i = 0 then initial else rs[i - 1]?) t = (.ok r, t')

end Jinete
