import Verif.Model.Utils
import Mathlib.Data.Nat.Choose.Basic
import Mathlib.Data.Nat.Factorial.Basic
import Mathlib.Data.List.Nodup
import Mathlib.Data.Finset.Card
import Mathlib.Data.Finset.Prod
import Mathlib.Algebra.BigOperators.Group.List.Basic
import Mathlib.Data.Nat.Choose.Sum
import Mathlib.Tactic.Ring

/-!
# C25, C26, C27: utilities
-/

set_option autoImplicit false

namespace Jinete

/-! ## C27 -/

section RemoveDuplicates
variable {E : Type} [DecidableEq E]

theorem removeDuplicatesAux_mem (seen l : List E) (x : E) :
    x ∈ removeDuplicatesAux seen l ↔ x ∈ l ∧ x ∉ seen := by
  induction l generalizing seen with
  | nil => simp [removeDuplicatesAux]
  | cons y l ih =>
    unfold removeDuplicatesAux
    split
    · rename_i hy
      rw [ih]
      constructor
      · rintro ⟨h1, h2⟩; exact ⟨List.mem_cons_of_mem _ h1, h2⟩
      · rintro ⟨h1, h2⟩
        rcases List.mem_cons.1 h1 with rfl | h1
        · exact absurd hy h2
        · exact ⟨h1, h2⟩
    · rename_i hy
      simp only [List.mem_cons, ih, not_or]
      by_cases hxy : x = y
      · subst hxy; simp [hy]
      · simp [hxy]

theorem removeDuplicatesAux_nodup (seen l : List E) : (removeDuplicatesAux seen l).Nodup := by
  induction l generalizing seen with
  | nil => simp [removeDuplicatesAux]
  | cons y l ih =>
    unfold removeDuplicatesAux
    split
    · exact ih _
    · refine List.nodup_cons.2 ⟨?_, ih _⟩
      simp [removeDuplicatesAux_mem]

/-- Specification of first occurrence order: `x` occurs for the first time before `y` does. -/
def FirstBefore (l : List E) (x y : E) : Prop := ∃ pre suf, l = pre ++ x :: suf ∧ x ∉ pre ∧ y ∉ pre ∧ y ∈ suf ∧ x ≠ y

theorem removeDuplicatesAux_order (seen l : List E) (x y : E) (hx : x ∉ seen) (hy : y ∉ seen) :
    FirstBefore l x y → FirstBefore (removeDuplicatesAux seen l) x y := by
  rintro ⟨pre, suf, rfl, h1, h2, h3, h4⟩
  induction pre generalizing seen with
  | nil =>
    refine ⟨[], removeDuplicatesAux (x :: seen) suf, ?_, by simp, by simp, ?_, h4⟩
    · simp [removeDuplicatesAux, hx]
    · simp [removeDuplicatesAux_mem, h3, hy, h4.symm]
  | cons z pre ih =>
    simp only [List.mem_cons, not_or] at h1 h2
    simp only [List.cons_append, removeDuplicatesAux]
    split
    · exact ih seen hx hy h1.2 h2.2
    · obtain ⟨p, s, e, q1, q2, q3, q4⟩ := ih (z :: seen) (by simp [hx, h1.1]) (by simp [hy, h2.1]) h1.2 h2.2
      exact ⟨z :: p, s, by simp [e], by simp [q1, h1.1], by simp [q2, h2.1], q3, q4⟩

theorem removeDuplicatesAux_of_nodup (seen l : List E) (h : l.Nodup) (hd : ∀ x ∈ l, x ∉ seen) :
    removeDuplicatesAux seen l = l := by
  induction l generalizing seen with
  | nil => rfl
  | cons y l ih =>
    have hy := hd y (by simp)
    simp only [removeDuplicatesAux, hy, if_false]
    rw [ih _ (List.nodup_cons.1 h).2]
    intro x hx
    simp only [List.mem_cons, not_or]
    exact ⟨fun e => (List.nodup_cons.1 h).1 (e ▸ hx), hd x (by simp [hx])⟩

/-- **C27.** `remove_duplicates` returns a duplicate-free list with the same elements, in the order of
first occurrence; it is a sublist of its argument and it is idempotent. -/
theorem C27_remove_duplicates (seq : List E) :
    (removeDuplicates seq).Nodup ∧
    (∀ x, x ∈ removeDuplicates seq ↔ x ∈ seq) ∧
    (∀ x y, FirstBefore seq x y → FirstBefore (removeDuplicates seq) x y) ∧
    removeDuplicates (removeDuplicates seq) = removeDuplicates seq := by
  refine ⟨removeDuplicatesAux_nodup _ _, fun x => by simp [removeDuplicates, removeDuplicatesAux_mem], ?_, ?_⟩
  · intro x y h; exact removeDuplicatesAux_order [] seq x y (by simp) (by simp) h
  · exact removeDuplicatesAux_of_nodup _ _ (removeDuplicatesAux_nodup _ _) (by simp)

/-- Instance with interleaved repetitions. -/
example : removeDuplicates [3, 1, 3, 2, 1, 3] = [3, 1, 2] ∧ FirstBefore [3, 1, 3, 2, 1, 3] 1 2 := by
  refine ⟨by decide, [3], [3, 2, 1, 3], rfl, by decide, by decide, by decide, by decide⟩

end RemoveDuplicates

/-! ## C26 -/

theorem mulDown_eq (n r : Nat) (h : r ≤ n) : mulDown n r = (n.descFactorial r : Int) := by
  induction r with
  | zero => simp [mulDown]
  | succ r ih =>
    rw [mulDown, ih (by omega), Nat.descFactorial_succ]
    push_cast [Nat.cast_sub (show r ≤ n by omega)]
    ring

theorem mulUp_eq (r : Nat) : mulUp r = (r.factorial : Int) := by
  induction r with
  | zero => simp [mulUp]
  | succ r ih => rw [mulUp, ih, Nat.factorial_succ]; push_cast; ring

/-- **C26.** `ncr(n, r)` is the binomial coefficient whenever `0 <= r <= n`. -/
theorem C26_ncr (n r : Nat) (h : r ≤ n) : ncr n r = (n.choose r : Int) := by
  have key : ∀ k, k ≤ n → mulDown n k / mulUp k = (n.choose k : Int) := by
    intro k hk
    rw [mulDown_eq n k hk, mulUp_eq, Nat.choose_eq_descFactorial_div_factorial]
    norm_cast
  unfold ncr
  rcases le_total (r : Int) ((n : Int) - r) with h' | h'
  · simp only [min_eq_left h', Int.toNat_natCast]
    exact key r h
  · have e : ((n : Int) - r).toNat = n - r := by omega
    simp only [min_eq_right h', e]
    rw [key (n - r) (by omega), Nat.choose_symm h]

example : ncr 52 5 = 2598960 ∧ 5 ≤ 52 := by decide +kernel

/-- Outside that range the function is not the binomial coefficient: `ncr(1, 2)` is 1 instead of 0. -/
theorem C26_out_of_range_witness : ncr 1 2 = 1 ∧ Nat.choose 1 2 = 0 := by decide +kernel

/-! ## C25 -/

/-- Specification of an index pair. -/
def ValidPair (n : Nat) (p : Nat × Nat) : Prop := p.1 < p.2 ∧ p.2 < n

theorem combinations2_mem (n : Nat) (p : Nat × Nat) : p ∈ combinations2 n ↔ ValidPair n p := by
  obtain ⟨i, j⟩ := p
  simp only [combinations2, List.mem_flatMap, List.mem_range, List.mem_map, List.mem_filter,
    decide_eq_true_eq, Prod.mk.injEq, ValidPair]
  constructor
  · rintro ⟨a, ha, b, ⟨hb, hab⟩, rfl, rfl⟩; exact ⟨hab, hb⟩
  · rintro ⟨h1, h2⟩; exact ⟨i, by omega, j, ⟨h2, h1⟩, rfl, rfl⟩

theorem combinations2_nodup (n : Nat) : (combinations2 n).Nodup := by
  unfold combinations2
  rw [List.nodup_flatMap]
  refine ⟨?_, ?_⟩
  · intro i _
    refine List.Nodup.map (fun a b h => by simpa using h) (List.nodup_range.filter _)
  · refine List.Pairwise.imp_of_mem ?_ List.nodup_range
    intro a b _ _ hab
    simp only [Function.onFun, List.disjoint_left, List.mem_map, List.mem_filter]
    rintro p ⟨j, _, rfl⟩ ⟨k, _, hk⟩
    simp only [Prod.mk.injEq] at hk
    exact hab hk.1.symm

theorem combinations2_length (n : Nat) : (combinations2 n).length = n.choose 2 := by
  induction n with
  | zero => rfl
  | succ n ih =>
    have perm : (combinations2 (n + 1)).Perm (combinations2 n ++ (List.range n).map fun i => (i, n)) := by
      rw [List.perm_ext_iff_of_nodup (combinations2_nodup _)]
      · intro p
        obtain ⟨i, j⟩ := p
        simp only [List.mem_append, combinations2_mem, List.mem_map, List.mem_range, ValidPair, Prod.mk.injEq]
        constructor
        · rintro ⟨h1, h2⟩
          rcases Nat.lt_succ_iff_lt_or_eq.1 h2 with h | h
          · exact Or.inl ⟨h1, h⟩
          · exact Or.inr ⟨i, by omega, rfl, h.symm⟩
        · rintro (⟨h1, h2⟩ | ⟨k, h1, rfl, rfl⟩)
          · exact ⟨h1, by omega⟩
          · exact ⟨h1, by omega⟩
      · refine List.Nodup.append (combinations2_nodup n) (List.nodup_range.map fun a b h => by simpa using h) ?_
        rw [List.disjoint_left]
        rintro ⟨i, j⟩ h1 h2
        rw [combinations2_mem] at h1
        simp only [List.mem_map, Prod.mk.injEq] at h2
        obtain ⟨_, _, _, rfl⟩ := h2
        exact absurd h1.2 (by simp)
    rw [perm.length_eq, List.length_append, ih]
    simp [Nat.choose_succ_succ', Nat.add_comm]

/-- The behaviour of `randint(lo, hi)` for a non-empty range. -/
def RandInt (rnd : Nat → Nat → Nat → Nat) : Prop := ∀ k lo hi, lo ≤ hi → lo ≤ rnd k lo hi ∧ rnd k lo hi ≤ hi

theorem samplePairsLoop_spec (n count : Nat) (rnd : Nat → Nat → Nat → Nat) (hr : RandInt rnd) (hn : 2 ≤ n)
    (fuel tick : Nat) (acc out : List (Nat × Nat)) (hacc : acc.Nodup) (hv : ∀ p ∈ acc, ValidPair n p)
    (hc : acc.length ≤ count) (h : samplePairsLoop n count rnd fuel tick acc = some out) :
    out.Nodup ∧ (∀ p ∈ out, ValidPair n p) ∧ out.length = count := by
  induction fuel generalizing tick acc with
  | zero =>
    unfold samplePairsLoop at h
    split at h
    · cases h
    · cases h; exact ⟨hacc, hv, by omega⟩
  | succ fuel ih =>
    unfold samplePairsLoop at h
    split at h
    · rename_i hlt
      have hi := hr tick 0 (n - 2) (by omega)
      have hj := hr (tick + 1) (rnd tick 0 (n - 2) + 1) (n - 1) (by omega)
      refine ih (tick + 2) _ ?_ ?_ ?_ h
      · split
        · exact hacc
        · rename_i hm; exact List.nodup_cons.2 ⟨hm, hacc⟩
      · split
        · exact hv
        · intro p hp
          rcases List.mem_cons.1 hp with rfl | hp
          · simp only [ValidPair]; omega
          · exact hv p hp
      · split
        · exact hc
        · simp only [List.length_cons]; omega
    · cases h; exact ⟨hacc, hv, by omega⟩

/-- **C25.** Whenever `sample_index_pairs(n, count)` returns, for any random stream, it returns pairwise
distinct valid pairs, exactly `min(count, n(n-1)/2)` of them; and it always returns when
`count >= n(n-1)/2`. (`n >= 2`: a route has at least its two depot stops.) -/
theorem C25_sample_index_pairs (n count fuel : Nat) (rnd : Nat → Nat → Nat → Nat) (hr : RandInt rnd)
    (hn : 2 ≤ n) :
    (∀ out, sampleIndexPairs n count rnd fuel = some out →
      out.Nodup ∧ (∀ p ∈ out, ValidPair n p) ∧ out.length = min count (n.choose 2)) ∧
    (n.choose 2 ≤ count → ∃ out, sampleIndexPairs n count rnd fuel = some out ∧
      ∀ p, p ∈ out ↔ ValidPair n p) := by
  have hncr : ncr n 2 = (n.choose 2 : Int) := C26_ncr n 2 hn
  constructor
  · intro out h
    unfold sampleIndexPairs at h
    rw [hncr] at h
    split at h
    · rename_i hle
      cases h
      have : n.choose 2 ≤ count := by exact_mod_cast hle
      exact ⟨combinations2_nodup n, fun p hp => (combinations2_mem n p).1 hp,
        by rw [combinations2_length]; omega⟩
    · rename_i hle
      have : count < n.choose 2 := by
        by_contra hc
        exact hle (by exact_mod_cast Nat.le_of_not_lt hc)
      obtain ⟨h1, h2, h3⟩ := samplePairsLoop_spec n count rnd hr hn fuel 0 [] out (by simp) (by simp) (by simp) h
      exact ⟨h1, h2, by omega⟩
  · intro hle
    refine ⟨combinations2 n, ?_, combinations2_mem n⟩
    unfold sampleIndexPairs
    rw [hncr, if_pos (by exact_mod_cast hle)]

/-- Both branches are reachable: exhaustive for a short route, sampled for a longer one. -/
example : sampleIndexPairs 3 128 (fun _ lo _ => lo) 0 = some [(0, 1), (0, 2), (1, 2)] ∧
    sampleIndexPairs 4 2 (fun k lo hi => if k < 2 then lo else hi) 5 = some [(2, 3), (0, 1)] ∧
    RandInt (fun k lo hi => if k < 2 then lo else hi) := by
  refine ⟨by decide +kernel, by decide +kernel, ?_⟩
  intro k lo hi h
  dsimp only
  split <;> omega

end Jinete
