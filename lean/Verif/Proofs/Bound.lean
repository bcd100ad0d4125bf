import Verif.Basic

/-! # Lemmas on `Bound`, `maxD`, `minBound` -/

set_option autoImplicit false

namespace Jinete
namespace Bound

@[simp] theorem leQ_inf (x : ℚ) : leQ x .inf = true := rfl
@[simp] theorem leQ_fin (x b : ℚ) : leQ x (.fin b) = true ↔ x ≤ b := by simp [leQ]

theorem leQ_min (x : ℚ) (a b : Bound) : leQ x (Bound.min a b) = true ↔ leQ x a = true ∧ leQ x b = true := by
  cases a <;> cases b <;> simp [Bound.min]
  split <;> constructor <;> intro h <;> (try constructor) <;> linarith [h]

theorem leQ_addQ (x q : ℚ) (b : Bound) : leQ x (b.addQ q) = true ↔ leQ (x - q) b = true := by
  cases b <;> simp [addQ]
theorem leQ_subQ (x q : ℚ) (b : Bound) : leQ x (b.subQ q) = true ↔ leQ (x + q) b = true := by
  simp [subQ, leQ_addQ]

theorem leQ_mono {x y : ℚ} {b : Bound} (h : x ≤ y) (hy : leQ y b = true) : leQ x b = true := by
  cases b <;> simp_all; linarith

end Bound

theorem foldl_max_ge (l : List ℚ) (x : ℚ) : x ≤ l.foldl max x ∧ ∀ y ∈ l, y ≤ l.foldl max x := by
  induction l generalizing x with
  | nil => simp
  | cons z l ih =>
    obtain ⟨h1, h2⟩ := ih (max x z)
    refine ⟨le_trans (le_max_left _ _) h1, ?_⟩
    intro y hy
    rcases List.mem_cons.1 hy with rfl | hy
    · exact le_trans (le_max_right _ _) h1
    · exact h2 y hy

theorem foldl_max_mem (l : List ℚ) (x : ℚ) : l.foldl max x = x ∨ l.foldl max x ∈ l := by
  induction l generalizing x with
  | nil => simp
  | cons z l ih =>
    simp only [List.foldl_cons, List.mem_cons]
    rcases ih (max x z) with h | h
    · rcases max_choice x z with h' | h' <;> rw [h'] at h ⊢ <;> simp_all
    · exact Or.inr (Or.inr h)

theorem le_maxD {d x : ℚ} {l : List ℚ} (h : x ∈ l) : x ≤ maxD d l := by
  cases l with
  | nil => simp at h
  | cons z l =>
    rcases List.mem_cons.1 h with rfl | h
    · exact (foldl_max_ge l x).1
    · exact (foldl_max_ge l z).2 x h

theorem maxD_mem {d : ℚ} {l : List ℚ} (h : l ≠ []) : maxD d l ∈ l := by
  cases l with
  | nil => simp at h
  | cons z l =>
    rcases foldl_max_mem l z with h | h
    · simp [maxD, h]
    · simp [maxD, h]

/-- `maxD` is the least upper bound of a non-empty list. -/
theorem maxD_le_iff {d x : ℚ} {l : List ℚ} (h : l ≠ []) : maxD d l ≤ x ↔ ∀ y ∈ l, y ≤ x :=
  ⟨fun hx _ hy => le_trans (le_maxD hy) hx, fun hx => hx _ (maxD_mem h)⟩

@[simp] theorem maxD_nil (d : ℚ) : maxD d [] = d := rfl

theorem maxD_perm {d : ℚ} {l l' : List ℚ} (h : l.Perm l') : maxD d l = maxD d l' := by
  by_cases hl : l = []
  · subst hl; rw [List.nil_perm.1 h]
  · have hl' : l' ≠ [] := by rintro rfl; exact hl (List.perm_nil.1 h)
    apply le_antisymm
    · exact (maxD_le_iff hl).2 fun y hy => le_maxD (h.mem_iff.1 hy)
    · exact (maxD_le_iff hl').2 fun y hy => le_maxD (h.mem_iff.2 hy)

theorem leQ_minBound (x : ℚ) (l : List Bound) :
    Bound.leQ x (minBound l) = true ↔ ∀ b ∈ l, Bound.leQ x b = true := by
  have aux : ∀ (l : List Bound) (z : Bound), Bound.leQ x (l.foldl Bound.min z) = true ↔
      Bound.leQ x z = true ∧ ∀ b ∈ l, Bound.leQ x b = true := by
    intro l
    induction l with
    | nil => simp
    | cons y l ih => intro z; simp [ih, Bound.leQ_min, and_assoc]
  cases l with
  | nil => simp [minBound]
  | cons z l => simp [minBound, aux]

end Jinete
