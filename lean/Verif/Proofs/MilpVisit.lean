import Verif.Props.MilpPlan

/-!
# The nodes read from a solution are the path of the vehicle
-/

set_option autoImplicit false

namespace Jinete

namespace Milp

variable {P : Milp} {a : Assignment}

/-- Order by key, then by index. -/
def Before (key : Nat → ℚ) (i j : Nat) : Prop := key i < key j ∨ (key i = key j ∧ i < j)

theorem Before.irrefl {key : Nat → ℚ} {i : Nat} (h : Before key i i) : False := by
  rcases h with h | h
  · exact lt_irrefl _ h
  · omega

theorem Before.antisymm {key : Nat → ℚ} {i j : Nat} (h : Before key i j) (h' : Before key j i) : i = j := by
  rcases h with h | ⟨h, hi⟩ <;> rcases h' with h' | ⟨h', hj⟩
  · linarith
  · linarith
  · linarith
  · omega

theorem nodup_of_before {key : Nat → ℚ} {l : List Nat} (h : l.Pairwise (Before key)) : l.Nodup :=
  h.imp fun h e => by subst e; exact h.irrefl

theorem insertByTime_before (key : Nat → ℚ) (i : Nat) (l : List Nat) (hl : l.Pairwise (Before key))
    (hi : ∀ j ∈ l, i < j) : (insertByTime key i l).Pairwise (Before key) := by
  induction l with
  | nil => simp [insertByTime]
  | cons j l ih =>
    have hj := List.pairwise_cons.1 hl
    unfold insertByTime
    split
    · rename_i hle
      refine List.pairwise_cons.2 ⟨fun x hx => ?_, hl⟩
      have hxi := hi x hx
      have hle' : key i ≤ key x := by
        rcases List.mem_cons.1 hx with rfl | hx
        · exact hle
        · rcases hj.1 x hx with h | h
          · linarith
          · linarith [h.1]
      rcases lt_or_eq_of_le hle' with h | h
      · exact .inl h
      · exact .inr ⟨h, hxi⟩
    · rename_i hnle
      refine List.pairwise_cons.2 ⟨fun x hx => ?_, ih hj.2 fun x hx => hi x (List.mem_cons_of_mem _ hx)⟩
      rcases (mem_insertByTime key i x l).1 hx with rfl | hx
      · exact .inl (not_le.1 hnle)
      · exact hj.1 x hx

theorem sortByTime_before (key : Nat → ℚ) (l : List Nat) (hl : l.Pairwise (· < ·)) :
    (sortByTime key l).Pairwise (Before key) := by
  induction l with
  | nil => simp [sortByTime]
  | cons i l ih =>
    have hi := List.pairwise_cons.1 hl
    exact insertByTime_before key i _ (ih hi.2) fun j hj => hi.1 j ((mem_sortByTime key j l).1 hj)

theorem toInt_bin {v : ℚ} (h : v = 0 ∨ v = 1) : toInt v = 1 ↔ v = 1 := by
  rcases h with rfl | rfl <;> decide +kernel

/-- A node is read at most once if it has at most one used arc. -/
theorem visitedNodes_before {k : Nat} (hu : ∀ i < P.len, ∀ j < P.len, ∀ j' < P.len, toInt (a.x k i j) = 1 →
    toInt (a.x k i j') = 1 → j = j') : (P.visitedNodes a k).Pairwise (Before (a.u k)) := by
  unfold visitedNodes
  rw [List.pairwise_flatMap]
  constructor
  · intro i hi
    rw [mem_sortByTime, List.mem_range] at hi
    have hle : (P.positionsIdx.filter fun j => decide (toInt (a.x k i j) = 1)).length ≤ 1 := by
      have hn : (P.positionsIdx.filter fun j => decide (toInt (a.x k i j) = 1)).Nodup :=
        List.nodup_range.filter _
      cases hf : P.positionsIdx.filter fun j => decide (toInt (a.x k i j) = 1) with
      | nil => simp
      | cons j l =>
        cases l with
        | nil => simp
        | cons j' l =>
          have hmem : ∀ x ∈ j :: j' :: l, x < P.len ∧ toInt (a.x k i x) = 1 := by
            intro x hx
            rw [← hf, List.mem_filter] at hx
            exact ⟨List.mem_range.1 hx.1, of_decide_eq_true hx.2⟩
          have h1 := hmem j (by simp)
          have h2 := hmem j' (by simp)
          rw [hf] at hn
          have := hu i hi j h1.1 j' h2.1 h1.2 h2.2
          simp [this] at hn
    generalize (P.positionsIdx.filter fun j => decide (toInt (a.x k i j) = 1)) = l at hle ⊢
    match l, hle with
    | [], _ => simp
    | [_], _ => simp
  · refine (sortByTime_before (a.u k) _ List.pairwise_lt_range).imp ?_
    intro i j hij x hx y hy
    simp only [List.mem_map] at hx hy
    obtain ⟨_, _, rfl⟩ := hx
    obtain ⟨_, _, rfl⟩ := hy
    exact hij

/-- The nodes of the vehicle between the depots. -/
structure Tour (P : Milp) (a : Assignment) (k : Nat) (ns : List Nat) : Prop where
  path : P.DepotPath a k (0 :: (ns ++ [2 * P.n + 1]))
  inner : ∀ i ∈ ns, 1 ≤ i ∧ i ≤ 2 * P.n
  rising : ns.Pairwise fun i j => a.u k i < a.u k j
  start : ∀ i ∈ ns, a.u k 0 ≤ a.u k i
  mem : ∀ i, 1 ≤ i → i ≤ 2 * P.n → (i ∈ ns ↔ ∃ j, P.Uses a k i j)
  only : ∀ i j, P.Uses a k i j → (i, j) ∈ (0 :: (ns ++ [2 * P.n + 1])).zip (0 :: (ns ++ [2 * P.n + 1])).tail ∨
    (i, j) = (2 * P.n + 1, 0)
  visited : P.visitedNodes a k = 0 :: ns ∨
    (P.visitedNodes a k = [0, 2 * P.n + 1] ∧ ns = [] ∧ P.Uses a k (2 * P.n + 1) 0)

theorem tour_of (hv : P.vehicles ≠ []) (hc : P.Closes) (hm : ∀ p q, 0 ≤ P.metric p q)
    (hd : ∀ t ∈ P.trips, 0 < t.origin.duration) (h : P.solves a = true) {k : Nat} (hk : k < P.m)
    (h0 : ¬ P.Uses a k 0 0) : ∃ ns, P.Tour a k ns := by
  have hs := (solves_iff a).1 h
  have hl := P.len_eq hv
  have hf := hs.flow_of hv hc hm hd hk h0
  obtain ⟨p, hp, hall⟩ := C66_one_path_partial hv hc hm hd h hk h0
  obtain ⟨ns, rfl⟩ : ∃ ns, p = 0 :: (ns ++ [2 * P.n + 1]) := by
    have h1 := hp.first
    have h2 := hp.last
    cases p with
    | nil => simp at h1
    | cons b l =>
      simp only [List.head?_cons, Option.some.injEq] at h1
      subst h1
      rcases List.eq_nil_or_concat l with rfl | ⟨ns, y, rfl⟩
      · simp at h2
      · refine ⟨ns, ?_⟩
        have : y = 2 * P.n + 1 := by
          have e : 0 :: ns.concat y = (0 :: ns) ++ [y] := by simp
          rw [e, List.getLast?_append] at h2
          simpa using h2
        rw [this]; simp
  have hnd := hp.nodup
  have hch := hp.arcs
  have hnd0 : ∀ i ∈ ns, i ≠ 0 ∧ i ≠ 2 * P.n + 1 := by
    intro i hi
    have h1 := List.nodup_cons.1 hnd
    rw [List.nodup_append] at h1
    refine ⟨fun e => h1.1 (by rw [← e]; simp [hi]), fun e => ?_⟩
    exact h1.2.2.2 i hi _ (List.mem_singleton.2 rfl) e
  have hlast : (ns ++ [2 * P.n + 1]).getLast? = some (2 * P.n + 1) := by simp
  have hch' : (ns ++ [2 * P.n + 1]).IsChain fun i j => P.Uses a k i j := hch.tail
  have hinner : ∀ i ∈ ns, 1 ≤ i ∧ i ≤ 2 * P.n := by
    intro i hi
    obtain ⟨j, _, hj⟩ := chain_next hch' hlast (List.mem_append_left _ hi) (hnd0 i hi).2
    have := hnd0 i hi
    have := hj.1
    omega
  have hrising : ns.Pairwise fun i j => a.u k i < a.u k j := by
    have hc : ns.IsChain fun i j => a.u k i < a.u k j :=
      (hch'.left_of_append).imp_of_mem_imp fun i j hi _ hij => hf.strict i j (hinner i hi).1 (hinner i hi).2 hij
    have : Trans (fun i j => a.u k i < a.u k j) (fun i j => a.u k i < a.u k j) (fun i j => a.u k i < a.u k j) :=
      ⟨fun h h' => lt_trans h h'⟩
    exact hc.pairwise
  have hstart : ∀ i ∈ ns, a.u k 0 ≤ a.u k i := by
    intro i hi
    cases ns with
    | nil => simp at hi
    | cons b l =>
      have h1 : P.Uses a k 0 b := by
        simp only [List.cons_append, List.isChain_cons_cons] at hch
        exact hch.1
      have h2 := hf.weak 0 b h1
      rcases List.mem_cons.1 hi with rfl | hi
      · exact h2
      · exact le_trans h2 ((List.pairwise_cons.1 hrising).1 i hi).le
  have hmem : ∀ i, 1 ≤ i → i ≤ 2 * P.n → (i ∈ ns ↔ ∃ j, P.Uses a k i j) := by
    intro i h1 h2
    constructor
    · intro hi
      obtain ⟨j, _, hj⟩ := chain_next hch' hlast (List.mem_append_left _ hi) (hnd0 i hi).2
      exact ⟨j, hj⟩
    · rintro ⟨j, hj⟩
      rcases hall i j hj with h3 | h3
      · have := (mem_of_mem_zip_tail h3).1
        simp only [List.mem_cons, List.mem_append, List.not_mem_nil, or_false] at this
        rcases this with h | h | h
        · omega
        · exact h
        · omega
      · simp only [Prod.mk.injEq] at h3
        omega
  have huses : ∀ i < P.len, ∀ j < P.len, (toInt (a.x k i j) = 1 ↔ P.Uses a k i j) := by
    intro i hi j hj
    rw [toInt_bin (hs.bin k hk i hi j hj)]
    exact ⟨fun h => ⟨by omega, by omega, h⟩, fun h => h.2.2⟩
  have hunique : ∀ i < P.len, ∀ j < P.len, ∀ j' < P.len, toInt (a.x k i j) = 1 →
      toInt (a.x k i j') = 1 → j = j' := by
    intro i hi j hj j' hj' h1 h2
    rw [huses i hi j hj] at h1
    rw [huses i hi j' hj'] at h2
    by_cases hid : i = 2 * P.n + 1
    · have key : ∀ j, P.Uses a k i j → j = 0 := by
        intro j hu
        rcases hall i j hu with h3 | h3
        · exfalso
          -- the last node of a path without repetitions has no successor
          obtain ⟨q, r, e⟩ := zip_tail_split h3
          subst hid
          have h4 : (q ++ (2 * P.n + 1) :: j :: r).getLast? = some (2 * P.n + 1) := by rw [← e]; exact hp.last
          rw [e] at hnd
          have h5 : (2 * P.n + 1) ∈ j :: r := by
            apply List.mem_of_getLast?
            simpa using h4
          exact (List.nodup_cons.1 (List.nodup_append.1 hnd).2.1).1 h5
        · simp only [Prod.mk.injEq] at h3
          exact h3.2
      rw [key j h1, key j' h2]
    · exact hf.out_unique i j j' hid h1 h2
  have hbefore := visitedNodes_before hunique
  have hvis : ∀ i, i ∈ P.visitedNodes a k ↔ ∃ j, P.Uses a k i j := by
    intro i
    rw [mem_visitedNodes]
    constructor
    · rintro ⟨hi, j, hj, hx⟩
      exact ⟨j, (huses i hi j hj).1 hx⟩
    · rintro ⟨j, hj⟩
      have h1 := hj.1
      have h2 := hj.2.1
      exact ⟨by omega, j, by omega, (huses i (by omega) j (by omega)).2 hj⟩
  have hb0 : (0 :: ns).Pairwise (Before (a.u k)) := by
    refine List.pairwise_cons.2 ⟨fun i hi => ?_, hrising.imp fun h => .inl h⟩
    rcases lt_or_eq_of_le (hstart i hi) with h | h
    · exact .inl h
    · have := hinner i hi
      exact .inr ⟨h, by omega⟩
  refine ⟨ns, hp, hinner, hrising, hstart, hmem, hall, ?_⟩
  by_cases hback : ∃ j, P.Uses a k (2 * P.n + 1) j
  · right
    obtain ⟨j, hj⟩ := hback
    have hj0 : j = 0 := by
      rcases hall _ j hj with h3 | h3
      · exfalso
        obtain ⟨q, r, e⟩ := zip_tail_split h3
        have h4 : (q ++ (2 * P.n + 1) :: j :: r).getLast? = some (2 * P.n + 1) := by rw [← e]; exact hp.last
        rw [e] at hnd
        have h5 : (2 * P.n + 1) ∈ j :: r := by
          apply List.mem_of_getLast?
          simpa using h4
        exact (List.nodup_cons.1 (List.nodup_append.1 hnd).2.1).1 h5
      · simp only [Prod.mk.injEq] at h3
        exact h3.2
    subst hj0
    have hw := hf.weak _ _ hj
    have hns : ns = [] := by
      cases hns : ns with
      | nil => rfl
      | cons b l =>
        exfalso
        subst hns
        obtain ⟨c, hcm⟩ : ∃ c, (b :: l).getLast? = some c := ⟨_, List.getLast?_eq_some_getLast (by simp)⟩
        have hcm' := List.mem_of_getLast? hcm
        obtain ⟨j, hj', hr⟩ := chain_next hch' hlast (List.mem_append_left _ hcm') (hnd0 c hcm').2
        have h1 := hf.strict c j (hinner c hcm').1 (hinner c hcm').2 hr
        have h2 := hstart c hcm'
        rcases List.mem_append.1 hj' with h3 | h3
        · -- `c` is the last node of the tour
          have hle : ∀ x ∈ b :: l, a.u k x ≤ a.u k c := by
            intro x hx
            obtain ⟨l', hl'⟩ : ∃ l', b :: l = l' ++ [c] := by
              rcases List.eq_nil_or_concat (b :: l) with h | ⟨l', y, h⟩
              · simp at h
              · refine ⟨l', ?_⟩
                rw [h] at hcm
                have : y = c := by simpa using hcm
                rw [h, this]; simp
            rw [hl'] at hx hrising
            rcases List.mem_append.1 hx with hx | hx
            · exact ((List.pairwise_append.1 hrising).2.2 x hx c (by simp)).le
            · rw [List.mem_singleton.1 hx]
          linarith [hle j h3]
        · rw [List.mem_singleton.1 h3] at h1
          linarith
    refine ⟨?_, hns, hj⟩
    subst hns
    have hu01 : P.Uses a k 0 (2 * P.n + 1) := by simpa using hch
    have hb1 : [0, 2 * P.n + 1].Pairwise (Before (a.u k)) := by
      simp only [List.pairwise_cons, List.mem_singleton, List.not_mem_nil, List.Pairwise.nil, and_true,
        IsEmpty.forall_iff, implies_true, forall_eq]
      rcases lt_or_eq_of_le (hf.weak _ _ hu01) with h | h
      · exact .inl h
      · exact .inr ⟨h, by omega⟩
    refine List.Perm.eq_of_pairwise (fun x y _ _ h1 h2 => h1.antisymm h2) hbefore hb1
      ((List.perm_ext_iff_of_nodup (nodup_of_before hbefore) (nodup_of_before hb1)).2 fun i => ?_)
    rw [hvis]
    simp only [List.mem_cons, List.not_mem_nil, or_false]
    constructor
    · rintro ⟨j, hj⟩
      by_contra hne
      push Not at hne
      have := hj.1
      have := (hmem i (by omega) (by omega)).2 ⟨j, hj⟩
      simp at this
    · rintro (rfl | rfl)
      · exact hf.leave
      · exact ⟨0, hj⟩
  · left
    refine List.Perm.eq_of_pairwise (fun x y _ _ h1 h2 => h1.antisymm h2) hbefore hb0
      ((List.perm_ext_iff_of_nodup (nodup_of_before hbefore) (nodup_of_before hb0)).2 fun i => ?_)
    rw [hvis, List.mem_cons]
    constructor
    · rintro ⟨j, hj⟩
      by_cases hi0 : i = 0
      · exact .inl hi0
      · have hid : i ≠ 2 * P.n + 1 := fun e => hback ⟨j, e ▸ hj⟩
        have := hj.1
        exact .inr ((hmem i (by omega) (by omega)).2 ⟨j, hj⟩)
    · rintro (rfl | hi)
      · exact hf.leave
      · exact (hmem i (hinner i hi).1 (hinner i hi).2).1 hi

end Milp

end Jinete
