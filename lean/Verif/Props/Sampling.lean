import Verif.Props.Utils
import Verif.Spec.Insertion
import Mathlib.Data.Finset.Card
import Mathlib.Data.Finset.Dedup
import Mathlib.Data.Finset.Image

/-!
# C25: when sampling index pairs returns
-/

set_option autoImplicit false

namespace Jinete

/-- The pair drawn in a round of the sampling loop that starts with the given call of `randint`. -/
def pairAt (n : Nat) (rnd : Nat → Nat → Nat → Nat) (tick : Nat) : Nat × Nat :=
  (rnd tick 0 (n - 2), rnd (tick + 1) (rnd tick 0 (n - 2) + 1) (n - 1))

/-- The pairs drawn in so many rounds of the sampling loop. -/
def pairsDrawn (n : Nat) (rnd : Nat → Nat → Nat → Nat) (tick rounds : Nat) : Finset (Nat × Nat) :=
  (Finset.range rounds).image fun d => pairAt n rnd (tick + 2 * d)

theorem pairsDrawn_succ (n : Nat) (rnd : Nat → Nat → Nat → Nat) (tick rounds : Nat) :
    pairsDrawn n rnd tick (rounds + 1) = insert (pairAt n rnd tick) (pairsDrawn n rnd (tick + 2) rounds) := by
  ext p
  simp only [pairsDrawn, Finset.mem_image, Finset.mem_range, Finset.mem_insert]
  constructor
  · rintro ⟨d, hd, rfl⟩
    rcases d with _ | d
    · exact .inl rfl
    · exact .inr ⟨d, by omega, by congr 1; omega⟩
  · rintro (rfl | ⟨d, hd, rfl⟩)
    · exact ⟨0, by omega, rfl⟩
    · exact ⟨d + 1, by omega, by congr 1; omega⟩

theorem samplePairsLoop_ends (n count : Nat) (rnd : Nat → Nat → Nat → Nat) :
    ∀ (fuel tick : Nat) (acc : List (Nat × Nat)), acc.Nodup →
      ((samplePairsLoop n count rnd fuel tick acc).isSome ↔ count ≤ (acc.toFinset ∪ pairsDrawn n rnd tick fuel).card) := by
  intro fuel
  induction fuel with
  | zero =>
    intro tick acc hacc
    unfold samplePairsLoop
    rw [show pairsDrawn n rnd tick 0 = ∅ from rfl, Finset.union_empty, List.toFinset_card_of_nodup hacc]
    split <;> simp_all
  | succ fuel ih =>
    intro tick acc hacc
    unfold samplePairsLoop
    split
    · refine (ih (tick + 2) _ ?_).trans ?_
      · split
        · exact hacc
        · exact List.nodup_cons.2 ⟨by assumption, hacc⟩
      · rw [pairsDrawn_succ]
        have : (if pairAt n rnd tick ∈ acc then acc else pairAt n rnd tick :: acc).toFinset = insert (pairAt n rnd tick) acc.toFinset := by
          split
          · rw [Finset.insert_eq_self.2 (by simpa)]
          · simp
        have e : (if (rnd tick 0 (n - 2), rnd (tick + 1) (rnd tick 0 (n - 2) + 1) (n - 1)) ∈ acc then acc
          else (rnd tick 0 (n - 2), rnd (tick + 1) (rnd tick 0 (n - 2) + 1) (n - 1)) :: acc).toFinset = insert (pairAt n rnd tick) acc.toFinset := this
        rw [e, Finset.insert_union, Finset.union_insert]
    · rename_i h
      simp only [Option.isSome_some, true_iff]
      refine le_trans ?_ (Finset.card_le_card Finset.subset_union_left)
      rw [List.toFinset_card_of_nodup hacc]
      omega

/-- **C25, when it returns.** `sample_index_pairs(n, count)` returns within so many rounds if and only if there are no
more than `count` pairs, or `count` different pairs were drawn. So a stream in which every pair is drawn ends it. -/
theorem C25_returns_iff (n count fuel : Nat) (rnd : Nat → Nat → Nat → Nat) (hn : 2 ≤ n) :
    ((sampleIndexPairs n count rnd fuel).isSome ↔ n.choose 2 ≤ count ∨ count ≤ (pairsDrawn n rnd 0 fuel).card) ∧
    ((∀ p, ValidPair n p → p ∈ pairsDrawn n rnd 0 fuel) → (sampleIndexPairs n count rnd fuel).isSome) := by
  have main : (sampleIndexPairs n count rnd fuel).isSome ↔ n.choose 2 ≤ count ∨ count ≤ (pairsDrawn n rnd 0 fuel).card := by
    unfold sampleIndexPairs
    rw [show ncr n 2 = (n.choose 2 : Int) from C26_ncr n 2 hn]
    split
    · rename_i h
      have : n.choose 2 ≤ count := by exact_mod_cast h
      simp [this]
    · rename_i h
      have : ¬ n.choose 2 ≤ count := fun hc => h (by exact_mod_cast hc)
      rw [samplePairsLoop_ends n count rnd fuel 0 [] List.nodup_nil]
      simp [this]
  refine ⟨main, fun h => main.2 ?_⟩
  rcases le_total (n.choose 2) count with hc | hc
  · exact .inl hc
  · refine .inr (hc.trans ?_)
    rw [← combinations2_length, ← List.toFinset_card_of_nodup (combinations2_nodup n)]
    refine Finset.card_le_card fun p hp => h p ?_
    rwa [List.mem_toFinset, combinations2_mem] at hp

/-- The other two strategies do not sample. -/
theorem ends_intensive : Strategy.intensive.Ends := fun _ _ _ h => nomatch h

theorem ends_tail : Strategy.tail.Ends := fun _ _ _ h => nomatch h

/-- A stream that draws the pairs one after the other. -/
def inTurn (k lo hi : Nat) : Nat :=
  max lo (min hi (if k % 2 = 0 then ((combinations2 (hi + 2)).getD (k / 2) (0, 0)).1 else ((combinations2 (hi + 1)).getD (k / 2) (0, 0)).2))

theorem inTurn_randInt : RandInt inTurn := fun _ _ _ h => ⟨le_max_left _ _, max_le h (min_le_left _ _)⟩

theorem pairAt_inTurn {n d : Nat} (hn : 2 ≤ n) (hd : d < (combinations2 n).length) : pairAt n inTurn (2 * d) = (combinations2 n)[d] := by
  obtain ⟨h1, h2⟩ := (combinations2_mem n _).1 (List.getElem_mem hd)
  have e : n - 2 + 2 = n := by omega
  have e' : n - 1 + 1 = n := by omega
  have a : inTurn (2 * d) 0 (n - 2) = (combinations2 n)[d].1 := by
    simp only [inTurn, e, List.getD_eq_getElem?_getD, Nat.mul_mod_right, if_true, Nat.mul_div_cancel_left d (show 0 < 2 by decide), List.getElem?_eq_getElem hd,
      Option.getD_some]
    omega
  unfold pairAt
  rw [a]
  have b : inTurn (2 * d + 1) ((combinations2 n)[d].1 + 1) (n - 1) = (combinations2 n)[d].2 := by
    have h3 : (2 * d + 1) % 2 ≠ 0 := by omega
    have h4 : (2 * d + 1) / 2 = d := by omega
    simp only [inTurn, e', List.getD_eq_getElem?_getD, if_neg h3, h4, List.getElem?_eq_getElem hd, Option.getD_some]
    omega
  rw [b]

/-- Sampling as the strategy does it by default, 128 pairs, ends with that stream. -/
theorem ends_inTurn (count : Nat) : (Strategy.sampling count count fun _ => inTurn).Ends := by
  rintro _ _ _ ⟨⟩ k n hn
  refine (C25_returns_iff n count count inTurn hn).1.2 ?_
  rcases le_total (n.choose 2) count with h | h
  · exact .inl h
  right
  rw [← combinations2_length] at h
  have : ((combinations2 n).take count).toFinset ⊆ pairsDrawn n inTurn 0 count := by
    intro p hp
    obtain ⟨d, hd, rfl⟩ := List.mem_iff_getElem.1 (List.mem_toFinset.1 hp)
    rw [List.length_take] at hd
    refine Finset.mem_image.2 ⟨d, Finset.mem_range.2 (by omega), ?_⟩
    rw [Nat.zero_add, pairAt_inTurn hn (by omega), List.getElem_take]
  refine le_trans ?_ (Finset.card_le_card this)
  rw [List.toFinset_card_of_nodup ((combinations2_nodup n).sublist (List.take_sublist _ _)), List.length_take]
  omega

/-- A stream that draws the given pairs one after the other. -/
def drawing (qs : List (Nat × Nat)) (k lo hi : Nat) : Nat :=
  max lo (min hi (if k % 2 = 0 then (qs.getD (k / 2) (0, 0)).1 else (qs.getD (k / 2) (0, 0)).2))

theorem pairAt_drawing {n d : Nat} {qs : List (Nat × Nat)} (hq : ∀ p ∈ qs, ValidPair n p) (hd : d < qs.length) :
    pairAt n (drawing qs) (2 * d) = qs[d] := by
  obtain ⟨h1, h2⟩ := hq _ (List.getElem_mem hd)
  have a : drawing qs (2 * d) 0 (n - 2) = qs[d].1 := by
    simp only [drawing, List.getD_eq_getElem?_getD, Nat.mul_mod_right, if_true, Nat.mul_div_cancel_left d (show 0 < 2 by decide),
      List.getElem?_eq_getElem hd, Option.getD_some]
    omega
  unfold pairAt
  rw [a]
  have b : drawing qs (2 * d + 1) (qs[d].1 + 1) (n - 1) = qs[d].2 := by
    have h3 : (2 * d + 1) % 2 ≠ 0 := by omega
    have h4 : (2 * d + 1) / 2 = d := by omega
    simp only [drawing, List.getD_eq_getElem?_getD, if_neg h3, h4, List.getElem?_eq_getElem hd, Option.getD_some]
    omega
  rw [b]

theorem samplePairsLoop_drawing {n : Nat} {qs : List (Nat × Nat)} (hq : ∀ p ∈ qs, ValidPair n p) (hn : qs.Nodup) :
    ∀ fuel d, d + fuel = qs.length → samplePairsLoop n qs.length (drawing qs) fuel (2 * d) (qs.take d).reverse = some qs.reverse := by
  intro fuel
  induction fuel with
  | zero =>
    intro d hd
    have : qs.take d = qs := List.take_of_length_le (by omega)
    unfold samplePairsLoop
    rw [this, if_neg (by simp)]
  | succ fuel ih =>
    intro d hd
    have hlt : d < qs.length := by omega
    unfold samplePairsLoop
    rw [if_pos (by simp; omega)]
    have e := pairAt_drawing hq hlt
    have hni : qs[d] ∉ (qs.take d).reverse := by
      rw [List.mem_reverse]
      intro hm
      obtain ⟨i, hi, he⟩ := List.mem_iff_getElem.1 hm
      rw [List.getElem_take] at he
      have := (List.Nodup.getElem_inj_iff hn).1 he
      rw [List.length_take] at hi
      omega
    have h1 : (qs[d] :: (qs.take d).reverse) = (qs.take (d + 1)).reverse := by
      rw [List.take_succ_eq_append_getElem hlt, List.reverse_append]
      rfl
    show samplePairsLoop n qs.length (drawing qs) fuel (2 * (d + 1))
      (if pairAt n (drawing qs) (2 * d) ∈ (qs.take d).reverse then _ else pairAt n (drawing qs) (2 * d) :: (qs.take d).reverse) = _
    rw [e, if_neg hni, h1]
    exact ih (d + 1) (by omega)

/-- **C25, every sample.** Every set of `count` pairs, in every order in which it may be iterated, is the sample for some
random numbers. So what is shown for all streams is shown for all samples and all orders of the set. -/
theorem C25_every_sample (n : Nat) (ps : List (Nat × Nat)) (hp : ∀ p ∈ ps, ValidPair n p) (hn : ps.Nodup) (hc : ps.length < n.choose 2) :
    ∃ rnd, RandInt rnd ∧ sampleIndexPairs n ps.length rnd ps.length = some ps := by
  refine ⟨drawing ps.reverse, fun _ _ _ h => ⟨le_max_left _ _, max_le h (min_le_left _ _)⟩, ?_⟩
  have h2 : 2 ≤ n := by
    by_contra h
    rw [Nat.choose_eq_zero_of_lt (by omega)] at hc
    omega
  unfold sampleIndexPairs
  rw [show ncr n 2 = (n.choose 2 : Int) from C26_ncr n 2 h2, if_neg (by exact_mod_cast Nat.not_le.2 hc)]
  have := samplePairsLoop_drawing (n := n) (qs := ps.reverse) (fun p h => hp p (List.mem_reverse.1 h)) (List.nodup_reverse.2 hn)
    ps.length 0 (by simp)
  simpa using this

example : ∃ rnd, RandInt rnd ∧ sampleIndexPairs 4 2 rnd 2 = some [(2, 3), (0, 3)] :=
  C25_every_sample 4 [(2, 3), (0, 3)] (by simp [ValidPair]) (by decide) (by decide)

/-- Two different pairs in three rounds, and none of the two but the first in two rounds. -/
example : (sampleIndexPairs 4 2 (fun k lo hi => if k < 4 then lo else hi) 3).isSome ∧
    (sampleIndexPairs 4 2 (fun k lo hi => if k < 4 then lo else hi) 2).isSome = false := by decide +kernel

end Jinete
