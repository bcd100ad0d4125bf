import Verif.Props.MilpDecode
import Mathlib.Data.List.Chain
import Mathlib.Data.Finset.Max

/-!
# The arcs of a vehicle (C66)
-/

set_option autoImplicit false

namespace Jinete

namespace Milp

variable {P : Milp} {a : Assignment}

/-! ## Chains -/

theorem chain_next {R : Nat → Nat → Prop} {l : List Nat} (h : l.IsChain R) {y z : Nat} (hz : l.getLast? = some z)
    (hy : y ∈ l) (hne : y ≠ z) : ∃ y' ∈ l, R y y' := by
  induction l with
  | nil => simp at hy
  | cons b l ih =>
    cases l with
    | nil =>
      simp only [List.getLast?_singleton, Option.some.injEq] at hz
      simp only [List.mem_singleton] at hy
      exact absurd (hy.trans hz) hne
    | cons c l =>
      rw [List.isChain_cons_cons] at h
      rcases List.mem_cons.1 hy with rfl | hy
      · exact ⟨c, by simp, h.1⟩
      · obtain ⟨y', hy', hr⟩ := ih h.2 (by simpa using hz) hy
        exact ⟨y', List.mem_cons_of_mem _ hy', hr⟩

theorem chain_prev {R : Nat → Nat → Prop} {l : List Nat} (h : l.IsChain R) {y z : Nat} (hz : l.head? = some z)
    (hy : y ∈ l) (hne : y ≠ z) : ∃ y' ∈ l, R y' y := by
  induction l generalizing z with
  | nil => simp at hy
  | cons b l ih =>
    simp only [List.head?_cons, Option.some.injEq] at hz
    subst hz
    rcases List.mem_cons.1 hy with rfl | hy
    · exact absurd rfl hne
    · cases l with
      | nil => simp at hy
      | cons c l =>
        rw [List.isChain_cons_cons] at h
        by_cases hc : y = c
        · exact ⟨b, by simp, hc ▸ h.1⟩
        · obtain ⟨y', hy', hr⟩ := ih h.2 rfl hy hc
          exact ⟨y', List.mem_cons_of_mem _ hy', hr⟩

/-! ## The path -/

/-- What the path argument needs of one vehicle. -/
structure Flow (P : Milp) (a : Assignment) (k : Nat) : Prop where
  out_unique : ∀ i j j', i ≠ 2 * P.n + 1 → P.Uses a k i j → P.Uses a k i j' → j = j'
  in_unique : ∀ i i' j, j ≠ 0 → P.Uses a k i j → P.Uses a k i' j → i = i'
  leave : ∃ j, P.Uses a k 0 j
  enter : ∃ i, P.Uses a k i (2 * P.n + 1)
  through : ∀ i, 1 ≤ i → i ≤ 2 * P.n → ((∃ j, P.Uses a k i j) ↔ ∃ j, P.Uses a k j i)
  weak : ∀ i j, P.Uses a k i j → a.u k i ≤ a.u k j
  strict : ∀ i j, 1 ≤ i → i ≤ 2 * P.n → P.Uses a k i j → a.u k i < a.u k j
  no_loop : ¬ P.Uses a k 0 0

theorem Solution.flow_of (hs : Solution P a) (hv : P.vehicles ≠ []) (hc : P.Closes) (hm : ∀ p q, 0 ≤ P.metric p q)
    (hd : ∀ t ∈ P.trips, 0 < t.origin.duration) {k : Nat} (hk : k < P.m) (h0 : ¬ P.Uses a k 0 0) : Flow P a k := by
  have hl := P.len_eq hv
  have hso : P.ServesOnce a := C57_served_once hv ((solves_iff a).2 hs)
  have hload : ∀ i < 2 * P.n + 2, 0 ≤ P.loadTime i := by
    intro i hi
    rcases node_cases hi with rfl | rfl | ⟨t, ht, rfl⟩ | ⟨t, ht, rfl⟩
    · rw [loadTime_origin]
    · rw [loadTime_destination hv]
    · rw [loadTime_pickup hv ht]; exact (hd _ (List.getElem_mem ht)).le
    · rw [loadTime_delivery hv ht]; exact (hd _ (List.getElem_mem ht)).le
  have hpos : ∀ i, 1 ≤ i → i ≤ 2 * P.n → 0 < P.loadTime i := by
    intro i h1 h2
    rcases node_cases (P := P) (i := i) (by omega) with rfl | rfl | ⟨t, ht, rfl⟩ | ⟨t, ht, rfl⟩
    · omega
    · omega
    · rw [loadTime_pickup hv ht]; exact hd _ (List.getElem_mem ht)
    · rw [loadTime_delivery hv ht]; exact hd _ (List.getElem_mem ht)
  have hnode : ∀ i, 1 ≤ i → i ≤ 2 * P.n → P.VisitsOnce a k i ∨ P.Avoids a k i := by
    intro i h1 h2
    rcases node_cases (P := P) (i := i) (by omega) with rfl | rfl | ⟨t, ht, rfl⟩ | ⟨t, ht, rfl⟩
    · omega
    · omega
    all_goals
      obtain ⟨k', hk', hp, hd', ho⟩ := hso.trips t ht
      by_cases e : k = k'
      · subst e
        first
        | exact .inl hp
        | exact .inl hd'
      · first
        | exact .inr (ho k hk e).1
        | exact .inr (ho k hk e).2
  refine ⟨?_, ?_, (hso.leaves k hk).exists, (hso.enters k hk).exists, ?_, ?_, ?_, h0⟩
  · intro i j j' hi h1 h2
    by_cases hi0 : i = 0
    · subst hi0; exact (hso.leaves k hk).unique h1 h2
    · have := h1.1
      rcases hnode i (by omega) (by omega) with h | h
      · exact h.1.unique h1 h2
      · exact absurd h1 (h.1 j)
  · intro i i' j hj h1 h2
    by_cases hjd : j = 2 * P.n + 1
    · subst hjd; exact (hso.enters k hk).unique h1 h2
    · have := h1.2.1
      rcases hnode j (by omega) (by omega) with h | h
      · exact h.2.unique h1 h2
      · exact absurd h1 (h.2 i)
  · intro i h1 h2
    rcases hnode i h1 h2 with h | h
    · exact ⟨fun _ => h.2.exists, fun _ => h.1.exists⟩
    · exact ⟨fun ⟨j, hj⟩ => absurd hj (h.1 j), fun ⟨j, hj⟩ => absurd hj (h.2 j)⟩
  · intro i j hu
    have h1 := hs.advance hv hc hk hu
    have h2 := hload i hu.1
    have h3 : 0 ≤ P.travel i j := hm _ _
    linarith
  · intro i j h1 h2 hu
    have h4 := hs.advance hv hc hk hu
    have h3 : 0 ≤ P.travel i j := hm _ _
    have := hpos i h1 h2
    linarith

/-- The nodes strictly later than `i`. -/
def later (P : Milp) (a : Assignment) (k i : Nat) : Finset Nat :=
  (Finset.range (2 * P.n + 2)).filter fun j => a.u k i < a.u k j

theorem later_lt {k i j : Nat} (hj : j < 2 * P.n + 2) (h : a.u k i < a.u k j) :
    (P.later a k j).card < (P.later a k i).card := by
  refine Finset.card_lt_card ⟨fun z hz => ?_, fun hsub => ?_⟩
  · simp only [later, Finset.mem_filter] at hz ⊢
    exact ⟨hz.1, lt_trans h hz.2⟩
  · have : j ∈ P.later a k j := hsub (by simp only [later, Finset.mem_filter, Finset.mem_range]; exact ⟨hj, h⟩)
    simp [later] at this

theorem Flow.walk {k : Nat} (hf : Flow P a k) : ∀ N i, (P.later a k i).card ≤ N → 1 ≤ i → i ≤ 2 * P.n →
    (∃ j, P.Uses a k i j) → a.u k 0 ≤ a.u k i →
    ∃ l : List Nat, l.head? = some i ∧ l.getLast? = some (2 * P.n + 1) ∧ l.Nodup ∧ l.IsChain (fun i j => P.Uses a k i j) ∧
      ∀ y ∈ l, y = 2 * P.n + 1 ∨ (1 ≤ y ∧ y ≤ 2 * P.n ∧ a.u k i ≤ a.u k y) := by
  intro N
  induction N with
  | zero =>
    rintro i hN h1 h2 ⟨j, hj⟩ h0
    have := later_lt hj.2.1 (hf.strict i j h1 h2 hj)
    omega
  | succ N ih =>
    rintro i hN h1 h2 ⟨j, hj⟩ h0
    have hlt := hf.strict i j h1 h2 hj
    have hj2 := hj.2.1
    by_cases hjd : j = 2 * P.n + 1
    · subst hjd
      refine ⟨[i, 2 * P.n + 1], rfl, rfl, ?_, ?_, ?_⟩
      · simp; omega
      · simpa using hj
      · intro y hy
        simp only [List.mem_cons, List.not_mem_nil, or_false] at hy
        rcases hy with rfl | rfl
        · exact .inr ⟨h1, h2, le_refl _⟩
        · exact .inl rfl
    · have hj0 : j ≠ 0 := by rintro rfl; linarith
      have hc := later_lt hj2 hlt
      obtain ⟨l, hh, hla, hn, hch, hall⟩ := ih j (by omega) (by omega) (by omega)
        ((hf.through j (by omega) (by omega)).2 ⟨i, hj⟩) (by linarith)
      cases l with
      | nil => simp at hh
      | cons c l =>
        simp only [List.head?_cons, Option.some.injEq] at hh
        subst hh
        refine ⟨i :: c :: l, rfl, by simpa using hla, List.nodup_cons.2 ⟨fun hm => ?_, hn⟩,
          List.isChain_cons_cons.2 ⟨hj, hch⟩, fun y hy => ?_⟩
        · rcases hall i hm with h | h
          · omega
          · linarith [h.2.2]
        · rcases List.mem_cons.1 hy with rfl | hy
          · exact .inr ⟨h1, h2, le_refl _⟩
          · rcases hall y hy with h | h
            · exact .inl h
            · exact .inr ⟨h.1, h.2.1, by linarith [h.2.2]⟩

/-- There is a path of the vehicle from depot to depot with times that never decrease from the start. -/
theorem Flow.path {k : Nat} (hf : Flow P a k) : ∃ p, P.DepotPath a k p ∧ (∀ y ∈ p, y ≠ 0 → a.u k 0 ≤ a.u k y) := by
  obtain ⟨j, hj⟩ := hf.leave
  have hj2 := hj.2.1
  have hw := hf.weak 0 j hj
  by_cases hjd : j = 2 * P.n + 1
  · subst hjd
    refine ⟨[0, 2 * P.n + 1], ⟨rfl, rfl, by simp, by simpa using hj⟩, fun y hy hne => ?_⟩
    simp only [List.mem_cons, List.not_mem_nil, or_false] at hy
    rcases hy with rfl | rfl
    · exact absurd rfl hne
    · exact hw
  · have hj0 : j ≠ 0 := by rintro rfl; exact hf.no_loop hj
    obtain ⟨l, hh, hla, hn, hch, hall⟩ := hf.walk _ j le_rfl (by omega) (by omega)
      ((hf.through j (by omega) (by omega)).2 ⟨0, hj⟩) hw
    cases l with
    | nil => simp at hh
    | cons c l =>
      simp only [List.head?_cons, Option.some.injEq] at hh
      subst hh
      have hdl : a.u k 0 ≤ a.u k (2 * P.n + 1) := by
        have hmem : 2 * P.n + 1 ∈ c :: l := List.mem_of_getLast? hla
        obtain ⟨y, hy, hr⟩ := chain_prev hch (y := 2 * P.n + 1) rfl hmem (by omega)
        have hy' : a.u k c ≤ a.u k y ∨ y = 2 * P.n + 1 := by
          rcases hall y hy with h | h
          · exact .inr h
          · exact .inl h.2.2
        rcases hy' with h | h
        · linarith [hf.weak _ _ hr]
        · -- the depot is entered from itself only if it is not entered from the path
          exfalso
          subst h
          have hlast : ∀ (q : List Nat) (d : Nat), q.IsChain (fun i j => P.Uses a k i j) → q.getLast? = some d →
              q.head? ≠ some d → q.Nodup → ∃ z ∈ q, z ≠ d ∧ P.Uses a k z d := by
            intro q d
            induction q with
            | nil => intro _ h; simp at h
            | cons b q ihq =>
              intro hq hl' hne hnd
              cases q with
              | nil => simp at hl'; simp [hl'] at hne
              | cons c' q =>
                rw [List.isChain_cons_cons] at hq
                rw [List.nodup_cons] at hnd
                by_cases hcd : c' = d
                · subst hcd
                  exact ⟨b, by simp, fun e => hnd.1 (by simp [e]), hq.1⟩
                · obtain ⟨z, hz, hzd, hu⟩ := ihq hq.2 (by simpa using hl') (by simpa using hcd) hnd.2
                  exact ⟨z, List.mem_cons_of_mem _ hz, hzd, hu⟩
          obtain ⟨z, _, hzd, hzu⟩ := hlast _ _ hch hla (by simp; omega) hn
          exact hzd (hf.in_unique _ _ _ (by omega) hzu hr)
      refine ⟨0 :: c :: l, ⟨rfl, by simpa using hla, List.nodup_cons.2 ⟨fun hm => ?_, hn⟩,
        List.isChain_cons_cons.2 ⟨hj, hch⟩⟩, fun y hy hne => ?_⟩
      · rcases hall 0 hm with h | h <;> omega
      · rcases List.mem_cons.1 hy with rfl | hy
        · exact absurd rfl hne
        · rcases hall y hy with h | h
          · rw [h]; exact hdl
          · linarith [h.2.2]

/-- Nodes of the path lead to the path. -/
theorem Flow.next_mem {k : Nat} (hf : Flow P a k) {p : List Nat} (hp : P.DepotPath a k p) {y z : Nat} (hy : y ∈ p)
    (hne : y ≠ 2 * P.n + 1) (hu : P.Uses a k y z) : z ∈ p := by
  obtain ⟨z', hz', hr⟩ := chain_next hp.arcs hp.last hy hne
  rw [hf.out_unique _ _ _ hne hu hr]
  exact hz'

theorem Flow.prev_mem {k : Nat} (hf : Flow P a k) {p : List Nat} (hp : P.DepotPath a k p) {y z : Nat} (hy : y ∈ p)
    (hne : y ≠ 0) (hu : P.Uses a k z y) : z ∈ p := by
  obtain ⟨z', hz', hr⟩ := chain_prev hp.arcs hp.first hy hne
  rw [hf.in_unique _ _ _ hne hu hr]
  exact hz'

/-- Every node between the depots that the vehicle leaves is on the path. -/
theorem Flow.visited_mem {k : Nat} (hf : Flow P a k) {p : List Nat} (hp : P.DepotPath a k p)
    (h0 : ∀ y ∈ p, y ≠ 0 → a.u k 0 ≤ a.u k y) {i : Nat} (h1 : 1 ≤ i) (h2 : i ≤ 2 * P.n) (hi : ∃ j, P.Uses a k i j) :
    i ∈ p := by
  classical
  by_contra hn
  let S := (Finset.range (2 * P.n + 2)).filter fun i => 1 ≤ i ∧ i ≤ 2 * P.n ∧ (∃ j, P.Uses a k i j) ∧ i ∉ p
  have hS : S.Nonempty := ⟨i, by simp only [S, Finset.mem_filter, Finset.mem_range]; exact ⟨by omega, h1, h2, hi, hn⟩⟩
  have hd : 2 * P.n + 1 ∈ p := List.mem_of_getLast? hp.last
  have h0p : 0 ∈ p := List.mem_of_head? hp.first
  obtain ⟨y, hy, hmax⟩ := S.exists_max_image (a.u k) hS
  obtain ⟨z, hz, hmin⟩ := S.exists_min_image (a.u k) hS
  simp only [S, Finset.mem_filter, Finset.mem_range] at hy hz hmax hmin
  obtain ⟨_, hy1, hy2, ⟨j, hj⟩, hyp⟩ := hy
  obtain ⟨hz0, hz1, hz2, hzo, hzp⟩ := hz
  -- the latest node off the path leads to the origin depot
  have hj0 : j = 0 := by
    by_contra hne
    have hjp : j ∉ p := fun hjp => hyp (hf.prev_mem hp hjp hne hj)
    have hjb := hj.2.1
    have hjd : j ≠ 2 * P.n + 1 := fun e => hjp (e ▸ hd)
    have := hmax j ⟨hjb, by omega, by omega, (hf.through j (by omega) (by omega)).2 ⟨y, hj⟩, hjp⟩
    linarith [hf.strict y j hy1 hy2 hj]
  subst hj0
  -- the earliest node off the path is entered from the destination depot
  obtain ⟨b, hb⟩ := (hf.through z hz1 hz2).1 hzo
  have hbd : b = 2 * P.n + 1 := by
    by_contra hne
    have hbp : b ∉ p := fun hbp => hzp (hf.next_mem hp hbp hne hb)
    have hb0 : b ≠ 0 := fun e => hbp (e ▸ h0p)
    have hbb := hb.1
    have := hmin b ⟨hbb, by omega, by omega, ⟨z, hb⟩, hbp⟩
    linarith [hf.strict b z (by omega) (by omega) hb]
  subst hbd
  have e1 := hf.strict y 0 hy1 hy2 hj
  have e2 := hf.weak _ _ hb
  have e3 := h0 _ hd (by omega)
  have e4 := hmin y ⟨by omega, hy1, hy2, ⟨0, hj⟩, hyp⟩
  linarith

/-- The arcs of each vehicle form one path from depot to depot through all nodes it visits. -/
def OnePath (P : Milp) (a : Assignment) : Prop := ∀ k < P.m, ∃ p, P.DepotPath a k p ∧
  (∀ i j, P.Uses a k i j → (i, j) ∈ p.zip p.tail)

theorem mem_zip_tail {l : List Nat} {R : Nat → Nat → Prop} (h : l.IsChain R) {y z : Nat} (hz : l.getLast? = some z)
    (hy : y ∈ l) (hne : y ≠ z) : ∃ y', (y, y') ∈ l.zip l.tail ∧ R y y' := by
  induction l with
  | nil => simp at hy
  | cons b l ih =>
    cases l with
    | nil =>
      simp only [List.getLast?_singleton, Option.some.injEq] at hz
      simp only [List.mem_singleton] at hy
      exact absurd (hy.trans hz) hne
    | cons c l =>
      rw [List.isChain_cons_cons] at h
      rcases List.mem_cons.1 hy with rfl | hy
      · exact ⟨c, by simp, h.1⟩
      · obtain ⟨y', hy', hr⟩ := ih h.2 (by simpa using hz) hy
        exact ⟨y', by simpa using .inr (by simpa using hy'), hr⟩

/-- If passengers need some time to get on, all destinations close and the vehicle does not go from the origin depot to
itself, the arcs of a vehicle form one path; only the arc from the destination depot back to the origin depot may be
used besides. Missing from the full property: trips without loading time (`C66_detached_loop`), the loop at the origin
depot (`C66_depot_loop`), the arc between the depots (`C66_back_arc`), infinite latest times (not modelled). -/
theorem C66_one_path_partial (hv : P.vehicles ≠ []) (hc : P.Closes) (hm : ∀ p q, 0 ≤ P.metric p q)
    (hd : ∀ t ∈ P.trips, 0 < t.origin.duration) (h : P.solves a = true) {k : Nat} (hk : k < P.m)
    (h0 : ¬ P.Uses a k 0 0) :
    ∃ p, P.DepotPath a k p ∧ ∀ i j, P.Uses a k i j → (i, j) ∈ p.zip p.tail ∨ (i, j) = (2 * P.n + 1, 0) := by
  have hs := (solves_iff a).1 h
  have hf := hs.flow_of hv hc hm hd hk h0
  obtain ⟨p, hp, hlow⟩ := hf.path
  have hd' : 2 * P.n + 1 ∈ p := List.mem_of_getLast? hp.last
  refine ⟨p, hp, fun i j hu => ?_⟩
  by_cases hid : i = 2 * P.n + 1
  · subst hid
    right
    by_cases hj0 : j = 0
    · rw [hj0]
    · exfalso
      have hjb := hu.2.1
      -- `j` is entered over the path as well, and the path does not leave the destination depot
      have hjp : j ∈ p := by
        by_cases hjd : j = 2 * P.n + 1
        · rw [hjd]; exact hd'
        · exact hf.visited_mem hp hlow (by omega) (by omega) ((hf.through j (by omega) (by omega)).2 ⟨_, hu⟩)
      have hlast : ∀ (q : List Nat) (d : Nat), q.IsChain (fun i j => P.Uses a k i j) → q.getLast? = some d → q.Nodup →
          j ∈ q → q.head? ≠ some j → ∃ z, z ≠ d ∧ P.Uses a k z j := by
        intro q d
        induction q with
        | nil => intro _ h; simp at h
        | cons b q ihq =>
          intro hq hl' hnd hjq hne
          cases q with
          | nil => simp at hjq hne; exact absurd hjq.symm hne
          | cons c' q =>
            rw [List.isChain_cons_cons] at hq
            rw [List.nodup_cons] at hnd
            have hbd : b ≠ d := by
              intro e
              have : d ∈ c' :: q := List.mem_of_getLast? (by simpa using hl')
              exact hnd.1 (e ▸ this)
            by_cases hcj : c' = j
            · subst hcj; exact ⟨b, hbd, hq.1⟩
            · refine ihq hq.2 (by simpa using hl') hnd.2 ?_ (by simpa using hcj)
              rcases List.mem_cons.1 hjq with e | e
              · subst e; simp at hne
              · exact e
      obtain ⟨z, hz, hzu⟩ := hlast p _ hp.arcs hp.last hp.nodup hjp (by rw [hp.first]; simpa using Ne.symm hj0)
      exact hz (hf.in_unique _ _ _ hj0 hzu hu)
  · left
    have hib := hu.1
    have hip : i ∈ p := by
      by_cases hi0 : i = 0
      · rw [hi0]; exact List.mem_of_head? hp.first
      · exact hf.visited_mem hp hlow (by omega) (by omega) ⟨j, hu⟩
    obtain ⟨j', hj', hr⟩ := mem_zip_tail hp.arcs hp.last hip hid
    rw [hf.out_unique _ _ _ hid hu hr]
    exact hj'

example : ∃ p, demo.DepotPath demoOne 0 p ∧
    ∀ i j, demo.Uses demoOne 0 i j → (i, j) ∈ p.zip p.tail ∨ (i, j) = (2 * demo.n + 1, 0) := by
  refine C66_one_path_partial (by decide) ?_ (fun p q => abs_nonneg _) (by decide +kernel) demo_solved.1 (by decide) ?_
  · intro t ht
    simp only [demo, List.mem_cons, List.not_mem_nil, or_false] at ht
    rcases ht with rfl | rfl <;> exact ⟨_, rfl⟩
  · rintro ⟨_, _, h⟩; revert h; decide +kernel

/-! ## What goes wrong without the hypotheses -/

/-- The vehicle does not go to the delivery, which is its own successor. -/
def loopSolution : Assignment := ofTables [(0, 0, 1), (0, 1, 3), (0, 2, 2)] [[0, 1, 2, 4]] [[0, 1, 1, 1]]

/-- One vehicle and one trip without loading times. -/
def noLoading : Milp where
  vehicles := [⟨⟨[0], 0, .inf, 0⟩, none, 2, .fin 100⟩]
  trips := [⟨⟨[1], 0, .fin 50, 0⟩, ⟨[2], 0, .fin 60, 0⟩, 1, 0, .fin 30⟩]
  metric := lineMetric

theorem mem_of_mem_zip_tail {l : List Nat} {i j : Nat} (h : (i, j) ∈ l.zip l.tail) : i ∈ l ∧ j ∈ l.tail :=
  List.of_mem_zip h

/-- No consecutive elements of a list without duplicates are equal. -/
theorem no_loop_in_path {l : List Nat} (hn : l.Nodup) (i : Nat) : (i, i) ∉ l.zip l.tail := by
  induction l with
  | nil => simp
  | cons b l ih =>
    cases l with
    | nil => simp
    | cons c l =>
      rw [List.nodup_cons] at hn
      intro h
      simp only [List.tail_cons, List.zip_cons_cons, List.mem_cons, Prod.mk.injEq] at h
      rcases h with ⟨rfl, rfl⟩ | h
      · exact hn.1 (by simp)
      · exact ih hn.2 h

/-- Without loading times a delivery may be detached from the route. -/
theorem C66_detached_loop : noLoading.solves loopSolution = true ∧ ¬ OnePath noLoading loopSolution := by
  refine ⟨by decide +kernel, fun h => ?_⟩
  obtain ⟨p, hp, hall⟩ := h 0 (by decide)
  exact no_loop_in_path hp.nodup 2 (hall 2 2 ⟨by decide, by decide, by decide +kernel⟩)

/-- A vehicle may drive from the destination depot to the origin depot if it uses the loops at both depots. -/
theorem C66_depot_loop : slowDestination.solves
      (ofTables [(0, 0, 0), (0, 3, 3), (0, 3, 1), (0, 1, 2), (0, 2, 0)] [[4, 1, 2, 0]] [[0, 1, 0, 0]]) = true ∧
    ¬ OnePath slowDestination
      (ofTables [(0, 0, 0), (0, 3, 3), (0, 3, 1), (0, 1, 2), (0, 2, 0)] [[4, 1, 2, 0]] [[0, 1, 0, 0]]) := by
  refine ⟨by decide +kernel, fun h => ?_⟩
  obtain ⟨p, hp, hall⟩ := h 0 (by decide)
  exact no_loop_in_path hp.nodup 0 (hall 0 0 ⟨by decide, by decide, by decide +kernel⟩)

/-- An idle vehicle may go back and forth between the depots. -/
theorem C66_back_arc : demo.solves
      (ofTables [(0, 0, 1), (0, 1, 3), (0, 3, 2), (0, 2, 4), (0, 4, 5), (1, 0, 5), (1, 5, 0)]
        [[0, 1, 5, 3, 7, 12], [0, 1, 5, 3, 7, 0]] [[0, 1, 1, 0, 0, 0], [0, 1, 1, 0, 0, 0]]) = true ∧
    ¬ OnePath demo
      (ofTables [(0, 0, 1), (0, 1, 3), (0, 3, 2), (0, 2, 4), (0, 4, 5), (1, 0, 5), (1, 5, 0)]
        [[0, 1, 5, 3, 7, 12], [0, 1, 5, 3, 7, 0]] [[0, 1, 1, 0, 0, 0], [0, 1, 1, 0, 0, 0]]) := by
  refine ⟨by decide +kernel, fun h => ?_⟩
  obtain ⟨p, hp, hall⟩ := h 1 (by decide)
  have hm := (mem_of_mem_zip_tail (hall 5 0 ⟨by decide, by decide, by decide +kernel⟩)).2
  have hf := hp.first
  have hn := hp.nodup
  cases p with
  | nil => simp at hm
  | cons b l =>
    simp only [List.head?_cons, Option.some.injEq] at hf
    subst hf
    exact (List.nodup_cons.1 hn).1 hm

end Milp

end Jinete
