import Verif.Spec.Value
import Mathlib.Data.List.Induction

/-!
# Choosing by a key: `max`, `min`, `sorted`, `nlargest`, `nsmallest`
-/

set_option autoImplicit false

namespace Jinete

variable {α K : Type} [LinearOrder K]

theorem foldl_max_spec (l : List (α × K)) (x : α × K) :
    FirstMax (x :: l) (l.foldl (fun best y => if best.2 < y.2 then y else best) x) := by
  induction l using List.reverseRec with
  | nil => exact ⟨[], [], rfl, by simp, by simp⟩
  | append_singleton l y ih =>
    rw [List.foldl_append]
    simp only [List.foldl_cons, List.foldl_nil]
    generalize hb : l.foldl (fun best y => if best.2 < y.2 then y else best) x = b at ih ⊢
    obtain ⟨pre, suf, e, h1, h2⟩ := ih
    by_cases hy : b.2 < y.2
    · rw [if_pos hy]
      refine ⟨x :: l, [], by simp, ?_, by simp⟩
      intro z hz
      rw [e] at hz
      simp only [List.mem_append, List.mem_cons] at hz
      rcases hz with hz | rfl | hz
      · exact (h1 z hz).trans hy
      · exact hy
      · exact (h2 z hz).trans_lt hy
    · rw [if_neg hy]
      refine ⟨pre, suf ++ [y], by rw [← List.cons_append, e]; simp, h1, ?_⟩
      intro z hz
      simp only [List.mem_append, List.mem_singleton] at hz
      rcases hz with hz | rfl
      · exact h2 z hz
      · exact not_lt.1 hy

theorem foldl_min_spec (l : List (α × K)) (x : α × K) :
    FirstMin (x :: l) (l.foldl (fun best y => if y.2 < best.2 then y else best) x) := by
  induction l using List.reverseRec with
  | nil => exact ⟨[], [], rfl, by simp, by simp⟩
  | append_singleton l y ih =>
    rw [List.foldl_append]
    simp only [List.foldl_cons, List.foldl_nil]
    generalize hb : l.foldl (fun best y => if y.2 < best.2 then y else best) x = b at ih ⊢
    obtain ⟨pre, suf, e, h1, h2⟩ := ih
    by_cases hy : y.2 < b.2
    · rw [if_pos hy]
      refine ⟨x :: l, [], by simp, ?_, by simp⟩
      intro z hz
      rw [e] at hz
      simp only [List.mem_append, List.mem_cons] at hz
      rcases hz with hz | rfl | hz
      · exact hy.trans (h1 z hz)
      · exact hy
      · exact hy.trans_le (h2 z hz)
    · rw [if_neg hy]
      refine ⟨pre, suf ++ [y], by rw [← List.cons_append, e]; simp, h1, ?_⟩
      intro z hz
      simp only [List.mem_append, List.mem_singleton] at hz
      rcases hz with hz | rfl
      · exact h2 z hz
      · exact not_lt.1 hy

/-- `direction(l, key, default=None)` is the first best element, `None` on nothing. -/
theorem pick_spec (d : Direction) (l : List (α × K)) :
    (l = [] ∧ d.pick l = none) ∨ ∃ b, FirstBest d l b ∧ d.pick l = some b.1 := by
  cases l with
  | nil => cases d <;> exact .inl ⟨rfl, rfl⟩
  | cons x l =>
    cases d
    · exact .inr ⟨_, foldl_max_spec l x, rfl⟩
    · exact .inr ⟨_, foldl_min_spec l x, rfl⟩

theorem before_trans {d : Direction} {a b c : K} (h1 : Before d a b) (h2 : Before d b c) : Before d a c := by
  cases d
  · exact le_trans (show c ≤ b from h2) h1
  · exact le_trans (show a ≤ b from h1) h2

theorem le_iff {d : Direction} {a b : K} : d.le a b = true ↔ Before d a b := by
  cases d <;> simp [Direction.le, Before]

theorem before_of_not {d : Direction} {a b : K} (h : ¬ d.le a b = true) : Before d b a := by
  rw [le_iff] at h
  cases d
  · exact le_of_lt (not_le.1 h)
  · exact le_of_lt (not_le.1 h)

omit [LinearOrder K] in
theorem insertKeyed_perm (le : K → K → Bool) (x : α × K) (l : List (α × K)) : (insertKeyed le x l).Perm (x :: l) := by
  induction l with
  | nil => exact List.Perm.refl _
  | cons y l ih =>
    rw [insertKeyed]
    split
    · exact List.Perm.refl _
    · exact (ih.cons y).trans (List.Perm.swap x y l)

theorem insertKeyed_pairwise (d : Direction) (x : α × K) {l : List (α × K)}
    (hl : l.Pairwise fun x y => Before d x.2 y.2) : (insertKeyed d.le x l).Pairwise fun x y => Before d x.2 y.2 := by
  induction l with
  | nil => simp [insertKeyed]
  | cons y l ih =>
    rw [List.pairwise_cons] at hl
    rw [insertKeyed]
    split
    case isTrue h =>
      rw [le_iff] at h
      rw [List.pairwise_cons]
      refine ⟨?_, List.pairwise_cons.2 hl⟩
      intro z hz
      rcases List.mem_cons.1 hz with rfl | hz
      · exact h
      · exact before_trans h (hl.1 z hz)
    case isFalse h =>
      rw [List.pairwise_cons]
      refine ⟨?_, ih hl.2⟩
      intro z hz
      rcases List.mem_cons.1 ((insertKeyed_perm d.le x l).subset hz) with rfl | hz
      · exact before_of_not h
      · exact hl.1 z hz

theorem insertKeyed_filter (d : Direction) (x : α × K) (l : List (α × K)) (k : K) :
    (insertKeyed d.le x l).filter (fun y => decide (y.2 = k)) = (x :: l).filter fun y => decide (y.2 = k) := by
  induction l with
  | nil => rfl
  | cons y l ih =>
    rw [insertKeyed]
    split
    · rfl
    case isFalse h =>
      have hne : ¬ (x.2 = k ∧ y.2 = k) := by
        rintro ⟨h1, h2⟩
        apply h
        rw [le_iff, h1, h2]
        cases d <;> exact le_refl k
      rw [List.filter_cons, ih]
      by_cases h1 : x.2 = k
      · have h2 : ¬ y.2 = k := fun h2 => hne ⟨h1, h2⟩
        simp [h1, h2]
      · simp [List.filter_cons, h1]

/-- The model's sort is a stable sort. -/
theorem sortKeyed_spec (d : Direction) (l : List (α × K)) : StablySorted d l (sortKeyed d.le l) := by
  induction l with
  | nil => exact ⟨List.Perm.refl _, List.Pairwise.nil, fun _ => rfl⟩
  | cons x l ih =>
    refine ⟨(insertKeyed_perm d.le x _).trans (ih.perm.cons x), insertKeyed_pairwise d x ih.ordered, fun k => ?_⟩
    rw [sortKeyed, insertKeyed_filter, List.filter_cons, List.filter_cons, ih.stable k]

/-- The first best element is the head of the sorted list. -/
theorem FirstBest.head {d : Direction} {l s : List (α × K)} {b : α × K} (hb : FirstBest d l b)
    (hs : StablySorted d l s) : s.head? = some b := by
  have hbl : b ∈ l := by
    cases d <;> obtain ⟨pre, suf, rfl, _⟩ := hb <;> simp
  have hbest : ∀ x ∈ l, Before d b.2 x.2 := by
    cases d <;> obtain ⟨pre, suf, rfl, h1, h2⟩ := hb <;> intro x hx <;>
      simp only [List.mem_append, List.mem_cons] at hx <;> rcases hx with hx | rfl | hx
    · exact le_of_lt (h1 x hx)
    · exact le_refl _
    · exact h2 x hx
    · exact le_of_lt (h1 x hx)
    · exact le_refl _
    · exact h2 x hx
  have hfilt : (l.filter fun x => decide (x.2 = b.2)).head? = some b := by
    cases d <;> obtain ⟨pre, suf, rfl, h1, h2⟩ := hb
    · have : pre.filter (fun x => decide (x.2 = b.2)) = [] :=
        List.filter_eq_nil_iff.2 fun x hx => by simpa using ne_of_lt (h1 x hx)
      simp [List.filter_append, this]
    · have : pre.filter (fun x => decide (x.2 = b.2)) = [] :=
        List.filter_eq_nil_iff.2 fun x hx => by simpa using (ne_of_lt (h1 x hx)).symm
      simp [List.filter_append, this]
  cases s with
  | nil => exact absurd (hs.perm.symm.subset hbl) (by simp)
  | cons a s =>
    have hal : a ∈ l := hs.perm.subset (by simp)
    have h1 : Before d a.2 b.2 := by
      rcases List.mem_cons.1 (hs.perm.symm.subset hbl) with e | e
      · rw [e]; cases d <;> exact le_refl _
      · exact (List.pairwise_cons.1 hs.ordered).1 b e
    have h2 := hbest a hal
    have hk : a.2 = b.2 := by
      cases d
      · exact le_antisymm h2 h1
      · exact le_antisymm h1 h2
    have := hs.stable b.2
    rw [List.filter_cons, if_pos (by simpa using hk)] at this
    rw [← this] at hfilt
    simpa using hfilt

/-- The first best element is not worse than any other. -/
theorem FirstBest.before {d : Direction} {l : List (α × K)} {b : α × K} (hb : FirstBest d l b) :
    b ∈ l ∧ ∀ x ∈ l, Before d b.2 x.2 := by
  cases d <;> obtain ⟨pre, suf, rfl, h1, h2⟩ := hb <;> refine ⟨by simp, ?_⟩ <;> intro x hx <;>
    simp only [List.mem_append, List.mem_cons] at hx <;> rcases hx with hx | rfl | hx
  · exact le_of_lt (h1 x hx)
  · exact le_refl _
  · exact h2 x hx
  · exact le_of_lt (h1 x hx)
  · exact le_refl _
  · exact h2 x hx

end Jinete
