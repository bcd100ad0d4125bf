import Verif.Proofs.Insert

/-!
# `_improve_ride_times`: adjusting the depot and shifting stops
-/

set_option autoImplicit false

namespace Jinete

variable {E : Env}

/-- Coherence from equality of the recurrence. -/
theorem CohAt.of_eq {h h' : Heap} {s : Nat} {anc anc' : List Nat} (hs : CohAt E h s)
    (ha : Anc h.core s anc) (ha' : Anc h'.core s anc') (h0 : tmRev E h'.core s anc' = tmRev E h.core s anc)
    (h0' : loadRev E h'.core s anc' = loadRev E h.core s anc)
    (h1 : h'.arr s = h.arr s ∨ h'.arr s = none) (h2 : h'.dep s = h.dep s ∨ h'.dep s = none)
    (h3 : h'.cap s = h.cap s ∨ h'.cap s = none) : CohAt E h' s := by
  intro anc'' hanc'
  rw [hanc'.unique ha', h0, h0']
  obtain ⟨q1, q2, q3⟩ := hs anc ha
  refine ⟨fun v hv => ?_, fun v hv => ?_, fun v hv => ?_⟩
  · rcases h1 with e | e <;> rw [e] at hv
    · exact q1 v hv
    · cases hv
  · rcases h2 with e | e <;> rw [e] at hv
    · exact q2 v hv
    · cases hv
  · rcases h3 with e | e <;> rw [e] at hv
    · exact q3 v hv
    · cases hv

/-! ## The depot -/

/-- Delaying the start at the depot to the waiting time of the second stop leaves the service there
alone. -/
theorem depot_shift {c c' : Core} {s0 s1 : Nat} (hp : (visitOf c s0).picks = []) (hd : (visitOf c s0).drops = [])
    (hw : (tmRev E c s1 [s0]).start - (tmRev E c s1 [s0]).arr ≠ 0)
    (h0 : visitOf c' s0 = { visitOf c s0 with request := some ((tmRev E c s1 [s0]).start - (tmRev E c s1 [s0]).arr) })
    (hv : (c'.stop s0).vehicle = (c.stop s0).vehicle) (h1 : visitOf c' s1 = visitOf c s1) :
    (tmRev E c' s1 [s0]).start = (tmRev E c s1 [s0]).start ∧ (tmRev E c' s1 [s0]).dep = (tmRev E c s1 [s0]).dep := by
  have hpos : (c'.stop s0).position = (c.stop s0).position := congrArg Visit.pos h0
  suffices hs : (tmRev E c' s1 [s0]).start = (tmRev E c s1 [s0]).start by
    refine ⟨hs, ?_⟩
    have e1 : ∀ c : Core, (tmRev E c s1 [s0]).dep = (tmRev E c s1 [s0]).start + (visitOf c s1).loadTime E := fun _ => rfl
    rw [e1, e1, hs, h1]
  have e0 : (visitOf c s0).earliest E = 0 := by simp [Visit.earliest, hp, hd, maxD]
  have l0 : (visitOf c s0).loadTime E = 0 := by simp [Visit.loadTime, hp, hd, maxD]
  have ge : (tmRev E c s1 [s0]).arr ≤ (tmRev E c s1 [s0]).start := start_ge_arr c s1 [s0]
  generalize hw' : (tmRev E c s1 [s0]).start - (tmRev E c s1 [s0]).arr = w at *
  have wpos : 0 < w := lt_of_le_of_ne (by linarith) (Ne.symm hw)
  -- departures from the depot
  have d0 : 0 ≤ (tmRev E c s0 []).dep ∧ (tmRev E c s0 []).arr ≤ (tmRev E c s0 []).dep := by
    simp only [tmRev, serve, e0, l0, add_zero]
    exact ⟨le_trans (le_max_right _ _) (le_max_left _ _), le_max_right _ _⟩
  have d1 : (tmRev E c' s0 []).dep ≤ (tmRev E c s0 []).dep + w := by
    have harr : (tmRev E c' s0 []).arr = (tmRev E c s0 []).arr := by
      simp only [tmRev, serve, h0, hv]
    have e0' : (visitOf c' s0).earliest E = 0 := by rw [h0]; simpa [Visit.earliest] using e0
    have l0' : (visitOf c' s0).loadTime E = 0 := by rw [h0]; simpa [Visit.loadTime] using l0
    have : (tmRev E c' s0 []).dep = max (max w 0) (tmRev E c' s0 []).arr := by
      simp only [tmRev, serve, e0', l0', add_zero]
      rw [h0]; rfl
    rw [this, harr]
    refine max_le (max_le ?_ ?_) ?_ <;> linarith [d0.1, d0.2]
  have a1 : (tmRev E c' s1 [s0]).arr ≤ (tmRev E c s1 [s0]).start := by
    have : (tmRev E c' s1 [s0]).arr = (tmRev E c' s0 []).dep + E.metric (c.stop s0).position (visitOf c s1).pos := by
      show (tmRev E c' s0 []).dep + E.metric (c'.stop s0).position (visitOf c' s1).pos = _
      rw [hpos, h1]
    have h2 : (tmRev E c s1 [s0]).arr = (tmRev E c s0 []).dep + E.metric (c.stop s0).position (visitOf c s1).pos := rfl
    linarith
  have lt : (tmRev E c s1 [s0]).arr < (tmRev E c s1 [s0]).start := by linarith
  have st : ∀ c : Core, (tmRev E c s1 [s0]).start =
      max (max ((visitOf c s1).request.getD (tmRev E c s1 [s0]).arr) ((visitOf c s1).earliest E)) (tmRev E c s1 [s0]).arr :=
    fun _ => rfl
  have s1c := st c
  have s1c' := st c'
  rw [h1] at s1c'
  cases hr : (visitOf c s1).request with
  | none =>
    rw [hr] at s1c s1c'
    simp only [Option.getD_none] at s1c s1c'
    have k1 : (tmRev E c s1 [s0]).start = (visitOf c s1).earliest E := by
      rw [s1c] at lt ⊢
      rcases max_choice (max (tmRev E c s1 [s0]).arr ((visitOf c s1).earliest E)) (tmRev E c s1 [s0]).arr with h | h <;> rw [h] at lt ⊢
      · rcases max_choice (tmRev E c s1 [s0]).arr ((visitOf c s1).earliest E) with h | h <;> rw [h] at lt ⊢
        exact absurd lt (lt_irrefl _)
      · exact absurd lt (lt_irrefl _)
    rw [s1c', k1]
    rw [k1] at a1
    rw [max_eq_right a1, max_eq_left a1]
  | some v =>
    rw [hr] at s1c s1c'
    simp only [Option.getD_some] at s1c s1c'
    have k1 : (tmRev E c s1 [s0]).start = max v ((visitOf c s1).earliest E) := by
      rw [s1c] at lt ⊢
      rcases max_choice (max v ((visitOf c s1).earliest E)) (tmRev E c s1 [s0]).arr with h | h <;> rw [h] at lt ⊢
      exact absurd lt (lt_irrefl _)
    rw [s1c', k1]
    rw [k1] at a1
    exact max_eq_left a1

/-- A stop without predecessor is the first of any route it belongs to. -/
theorem Chained.head_of_none {c : Core} {q s : Nat} (hc : Chained c q) (hs : s ∈ (c.route q).stops)
    (hp : (c.stop s).previous = none) : (c.route q).stops.head? = some s := by
  obtain ⟨a, b, e⟩ := List.append_of_mem hs
  have := hc.linked a s b e
  rw [hp] at this
  have ha : a = [] := by
    cases a with
    | nil => rfl
    | cons x t => simp [List.getLast?_cons] at this
  rw [e, ha]; rfl

/-- Everything but the requested start of stop `s0` is the same. -/
structure Touched (h h' : Heap) (s0 : Nat) : Prop where
  nStop : h'.core.nStop = h.core.nStop
  nPt : h'.core.nPt = h.core.nPt
  nRoute : h'.core.nRoute = h.core.nRoute
  route : h'.core.route = h.core.route
  pt : h'.core.pt = h.core.pt
  stop : ∀ x, h'.core.stop x = { h.core.stop x with start := (h'.core.stop x).start }
  other : ∀ x, x ≠ s0 → h'.core.stop x = h.core.stop x
  sfeas : h'.sfeas = h.sfeas
  rfeas : h'.rfeas = h.rfeas

/-- The heap after setting the start of `s0` and flushing it and `s1`. -/
def afterAdjust (h : Heap) (s0 s1 : Nat) (w : ℚ) : Heap :=
  flushStops (h.setStop s0 { h.core.stop s0 with start := some w }) [s0, s0, s1]

section
variable {h : Heap} {s0 s1 : Nat} {w : ℚ}

theorem afterAdjust_stop (x : Nat) : (afterAdjust h s0 s1 w).core.stop x =
    if x = s0 then { h.core.stop s0 with start := some w } else h.core.stop x := by
  simp [afterAdjust, Heap.setStop, Function.update]

theorem afterAdjust_touched : Touched h (afterAdjust h s0 s1 w) s0 := by
  refine ⟨?_, ?_, ?_, ?_, ?_, ?_, ?_, ?_, ?_⟩
  all_goals try simp [afterAdjust, Heap.setStop]
  · intro x
    by_cases hx : x = s0 <;> simp [hx]
  · intro x hx
    simp [hx]

theorem afterAdjust_visit (x : Nat) (hx : x ≠ s0) : SameVisit h.core (afterAdjust h s0 s1 w).core x := by
  have ht := afterAdjust_touched (h := h) (s0 := s0) (s1 := s1) (w := w)
  refine ⟨?_, by rw [ht.other x hx]⟩
  unfold visitOf
  rw [ht.other x hx, ht.pt]

theorem afterAdjust_visit0 : visitOf (afterAdjust h s0 s1 w).core s0 = { visitOf h.core s0 with request := some w } := by
  have ht := afterAdjust_touched (h := h) (s0 := s0) (s1 := s1) (w := w)
  unfold visitOf
  rw [afterAdjust_stop, if_pos rfl, ht.pt]

theorem afterAdjust_caches (x : Nat) : let h' := afterAdjust h s0 s1 w
    (h'.arr x = h.arr x ∨ h'.arr x = none) ∧ (h'.dep x = h.dep x ∨ h'.dep x = none) ∧ (h'.cap x = h.cap x ∨ h'.cap x = none) := by
  simp only [afterAdjust, flushStops_arr, flushStops_dep, flushStops_cap, Heap.setStop]
  split <;> simp

theorem afterAdjust_pfeas (x : Nat) :
    (afterAdjust h s0 s1 w).pfeas x = h.pfeas x ∨ (afterAdjust h s0 s1 w).pfeas x = none := by
  simp only [afterAdjust, flushStops_pfeas, Heap.setStop]
  split <;> simp

theorem afterAdjust_blank {x : Nat} (hx : x = s0 ∨ x = s1) : CohAt E (afterAdjust h s0 s1 w) x :=
  flushed_cohAt (by rcases hx with rfl | rfl <;> simp)

end

theorem not_head {s0 s1 s : Nat} {a b : List Nat} (hnd : (s0 :: s1 :: (a ++ s :: b)).Nodup) :
    ∀ x ∈ s :: a.reverse, x ≠ s0 := by
  rintro x hx rfl
  apply (List.nodup_cons.1 hnd).1
  rcases List.mem_cons.1 hx with h | h
  · simp [h]
  · simp [List.mem_reverse.1 h]

theorem afterAdjust_inv {md : Mode} {S : Nat → Prop} {h : Heap} {r s0 s1 : Nat} {rest : List Nat}
    (inv : Inv E md S h) (hr : S r) (hst : (h.core.route r).stops = s0 :: s1 :: rest)
    (hw : (tmRev E h.core s1 [s0]).start - (tmRev E h.core s1 [s0]).arr ≠ 0) :
    let h' := afterAdjust h s0 s1 ((tmRev E h.core s1 [s0]).start - (tmRev E h.core s1 [s0]).arr)
    Inv E md S h' ∧ SameT E S h.core h'.core := by
  intro h'
  have ht : Touched h h' s0 := afterAdjust_touched
  have hwr := inv.ok.wf r hr
  have prev0 : (h.core.stop s0).previous = none := by simpa using hwr.linked [] s0 _ hst
  have prev1 : (h.core.stop s1).previous = some s0 := by simpa using hwr.linked [s0] s1 rest (by rw [hst]; rfl)
  have ne01 : s0 ≠ s1 := by
    intro e
    have := hwr.nodup
    rw [hst, e] at this
    simp at this
  have dep0 := hwr.depot s0 (by rw [hst]; rfl)
  -- routes through the depot stop
  have split : ∀ q, S q → s0 ∈ (h.core.route q).stops → ∃ rest', (h.core.route q).stops = s0 :: s1 :: rest' := by
    intro q hq hm
    have hh := (inv.ok.wf q hq).head_of_none hm prev0
    have := inv.ok.share q hq r hr s0 hh (by rw [hst]; rfl)
    rw [hst] at this
    cases hl : (h.core.route q).stops with
    | nil => rw [hl] at hh; simp at hh
    | cons x t =>
      rw [hl] at hh this
      cases t with
      | nil => simp at this
      | cons y t =>
        simp at hh this
        exact ⟨t, by rw [hh, this]⟩
  have wf' : ∀ q, S q → WellFormed h'.core q := by
    intro q hq
    refine (inv.ok.wf q hq).congr (by rw [ht.route]) (by rw [ht.nStop]) (by rw [ht.nPt]) (by rw [ht.nRoute])
      (fun s _ => by rw [ht.stop s]; simp) (fun p _ => by rw [ht.pt])
  have hshift := depot_shift (E := E) (c := h.core) (c' := h'.core) (s0 := s0) (s1 := s1)
    (by simp [visitOf, dep0.1]) (by simp [visitOf, dep0.2]) hw afterAdjust_visit0 (by rw [ht.stop s0])
    (afterAdjust_visit s1 (Ne.symm ne01)).visit
  -- stops after the second
  have far : ∀ (l : List Nat) (s : Nat), (∀ x ∈ s :: l, x ≠ s0) →
      tmRev E h'.core s (l ++ s1 :: [s0]) = tmRev E h.core s (l ++ s1 :: [s0]) := by
    intro l s hx
    exact tmRev_over hshift.2 (by rw [ht.other s1 (Ne.symm ne01)]) l s fun x hx' => afterAdjust_visit x (hx x hx')
  have serve : ∀ s, SameServe h.core h'.core s := by
    intro s
    refine ⟨by rw [ht.stop s], ?_, ?_, by rw [ht.stop s]⟩ <;> simp only [visitOf, ht.pt] <;> rw [ht.stop s]
  have notIn : ∀ q, S q → s0 ∉ (h.core.route q).stops → ∀ x ∈ (h.core.route q).stops, SameVisit h.core h'.core x :=
    fun q _ hn x hx => afterAdjust_visit x (by rintro rfl; exact hn hx)
  have sameT : SameT E S h.core h'.core := by
    refine ⟨by rw [ht.nStop], by rw [ht.nPt], by rw [ht.nRoute], fun q _ => by rw [ht.route], fun q _ s _ => ht.stop s,
      ?_, fun q _ s _ p _ => by rw [ht.pt], ?_, ?_, ?_⟩
    · intro q hq s hs
      have hne : s ≠ s0 := by
        rintro rfl
        obtain ⟨t, e⟩ := split q hq (List.mem_of_mem_tail hs)
        have := (inv.ok.wf q hq).nodup
        rw [e] at this hs
        exact (List.nodup_cons.1 this).1 hs
      rw [ht.other s hne]
    · intro q hq s hs
      exact loadAt_serve (inv.ok.wf q hq).toChained (wf' q hq).toChained (by rw [ht.route]) (fun x _ => serve x) hs
    · intro q hq s hs hh
      have e1 : ∃ t, (h.core.route q).stops = [] ++ s :: t := by
        cases hl : (h.core.route q).stops with
        | nil => rw [hl] at hs; simp at hs
        | cons x t => rw [hl] at hh; simp at hh; exact ⟨t, by rw [hh]; rfl⟩
      obtain ⟨t, e1⟩ := e1
      rw [(inv.ok.wf q hq).tmAt_eq e1, (wf' q hq).tmAt_eq (by rw [ht.route]; exact e1)]
      simp only [List.reverse_nil, tmRev, Jinete.serve]
      rw [(serve s).vehicle]
      have : (visitOf h'.core s).pos = (visitOf h.core s).pos := (serve s).pos
      rw [this]
    · intro q hq s hs
      by_cases hm : s0 ∈ (h.core.route q).stops
      · obtain ⟨t, e⟩ := split q hq hm
        have hnd := (inv.ok.wf q hq).nodup
        rw [e] at hs hnd
        simp only [List.tail_cons] at hs
        rcases List.mem_cons.1 hs with rfl | hs
        · have e1 : (h.core.route q).stops = [s0] ++ s :: t := e
          rw [(inv.ok.wf q hq).tmAt_eq e1, (wf' q hq).tmAt_eq (by rw [ht.route]; exact e1)]
          exact hshift
        · obtain ⟨a, b, rfl⟩ := List.append_of_mem hs
          have e1 : (h.core.route q).stops = (s0 :: s1 :: a) ++ s :: b := by rw [e]; simp
          rw [(inv.ok.wf q hq).tmAt_eq e1, (wf' q hq).tmAt_eq (by rw [ht.route]; exact e1)]
          have hrev : (s0 :: s1 :: a).reverse = a.reverse ++ s1 :: [s0] := by simp
          rw [hrev, far a.reverse s]
          · exact ⟨rfl, rfl⟩
          · exact not_head hnd
      · rw [(tmAt_same (inv.ok.wf q hq).toChained (wf' q hq).toChained (by rw [ht.route]) (notIn q hq hm)
          (List.mem_of_mem_tail hs)).1]
        exact ⟨rfl, rfl⟩
  refine ⟨⟨⟨wf', ?_, ?_⟩, ?_⟩, sameT⟩
  · intro q hq s hs
    rw [ht.route] at hs
    obtain ⟨c1, c2, c3⟩ := afterAdjust_caches (h := h) (s0 := s0) (s1 := s1)
      (w := (tmRev E h.core s1 [s0]).start - (tmRev E h.core s1 [s0]).arr) s
    by_cases hm : s0 ∈ (h.core.route q).stops
    · obtain ⟨t, e⟩ := split q hq hm
      have hnd := (inv.ok.wf q hq).nodup
      rw [e] at hnd
      have hs' := hs
      rw [e] at hs
      rcases List.mem_cons.1 hs with rfl | hs
      · exact afterAdjust_blank (.inl rfl)
      rcases List.mem_cons.1 hs with rfl | hs
      · exact afterAdjust_blank (.inr rfl)
      obtain ⟨a, b, rfl⟩ := List.append_of_mem hs
      have e1 : (h.core.route q).stops = (s0 :: s1 :: a) ++ s :: b := by rw [e]; simp
      have hrev : (s0 :: s1 :: a).reverse = a.reverse ++ s1 :: [s0] := by simp
      refine (inv.ok.agree q hq s hs').of_eq ((inv.ok.wf q hq).anc e1) ((wf' q hq).anc (by rw [ht.route]; exact e1)) ?_
        (loadRev_serve fun x _ => serve x) c1 c2 c3
      rw [hrev]
      exact far a.reverse s (not_head hnd)
    · obtain ⟨a, b, e⟩ := List.append_of_mem hs
      refine (inv.ok.agree q hq s hs).congr ((inv.ok.wf q hq).anc e) ((wf' q hq).anc (by rw [ht.route]; exact e)) ?_ c1 c2 c3
      intro x hx
      exact notIn q hq hm x (sub_of_split e x hx)
  · intro q hq q' hq' s
    rw [ht.route]
    exact inv.ok.share q hq q' hq' s
  · refine inv.vd.transfer inv.ok.wf sameT (fun q _ => .inl (by rw [ht.rfeas])) (fun q _ s _ => .inl (by rw [ht.sfeas])) ?_
    intro q _ s _ p _
    exact afterAdjust_pfeas p

theorem Touched.refl (h : Heap) (s0 : Nat) : Touched h h s0 :=
  ⟨rfl, rfl, rfl, rfl, rfl, fun _ => rfl, fun _ _ => rfl, rfl, rfl⟩

/-- The depot adjustment. -/
theorem adjustDepot_run {md : Mode} {S : Nat → Prop} {h : Heap} {r s0 s1 : Nat} {rest : List Nat}
    (inv : Inv E md S h) (hr : S r) (hst : (h.core.route r).stops = s0 :: s1 :: rest) :
    ∃ h', adjustDepot E r h = (.ok (), h') ∧ Inv E md S h' ∧ SameT E S h.core h'.core ∧ Touched h h' s0 ∧
      ((tmAt E h.core s1).start = (tmAt E h.core s1).arr → h'.core = h.core) ∧
      ((tmAt E h.core s1).start ≠ (tmAt E h.core s1).arr → visitOf h'.core s0 =
        { visitOf h.core s0 with request := some ((tmAt E h.core s1).start - (tmAt E h.core s1).arr) }) := by
  have hc := (inv.ok.wf r hr).toChained
  have e1 : (h.core.route r).stops = [s0] ++ s1 :: rest := hst
  have htm := hc.tmAt_eq (E := E) e1
  have hrev : [s0].reverse = [s0] := rfl
  rw [hrev] at htm
  have hreads := hc.waitingTime_reads (E := E) e1
  rw [hrev] at hreads
  set w := (tmRev E h.core s1 [s0]).start - (tmRev E h.core s1 [s0]).arr with hw
  have hrs : routeStops r h = (.ok (h.core.route r).stops, h) := by simp [routeStops]
  obtain ⟨h1, r1, g1⟩ := hreads h rfl (inv.ok.agree r hr)
  unfold adjustDepot
  rw [Py.bind_ok hrs, hst]
  have i1 : ∀ h' : Heap, Py.index (s0 :: s1 :: rest) 1 h' = (.ok s1, h') := fun _ => rfl
  have i0 : ∀ h' : Heap, Py.index (s0 :: s1 :: rest) 0 h' = (.ok s0, h') := fun _ => rfl
  rw [Py.bind_ok (i1 h), Py.bind_ok r1]
  have t1 : Touched h h1 s0 := ⟨by rw [g1.core], by rw [g1.core], by rw [g1.core], by rw [g1.core], by rw [g1.core],
    fun x => by rw [g1.core], fun x _ => by rw [g1.core], g1.sfeas, g1.rfeas⟩
  by_cases h0 : w = 0
  · rw [if_neg (by simpa using h0)]
    refine ⟨h1, rfl, inv.growsV g1.toV, by rw [g1.core]; exact SameT.refl _, t1, fun _ => g1.core, fun he => ?_⟩
    rw [htm] at he
    exact absurd (sub_eq_zero.1 h0) he
  · rw [if_pos h0, Py.bind_ok (i0 h1)]
    have hreads1 := hreads
    obtain ⟨h2, r2, g2⟩ := hreads h1 g1.core (fun s hs => g1.coh (inv.ok.agree r hr s hs))
    rw [Py.bind_ok r2]
    have inv2 := (inv.growsV g1.toV).growsV g2.toV
    have hcore : h2.core = h.core := g2.core.trans g1.core
    have key := afterAdjust_inv (h := h2) inv2 hr (by rw [hcore]; exact hst) (by rw [hcore]; exact h0)
    simp only at key
    rw [hcore] at key
    refine ⟨afterAdjust h2 s0 s1 w, ?_, key.1, key.2, ?_, ?_, ?_⟩
    · rfl
    · have t3 : Touched h2 (afterAdjust h2 s0 s1 w) s0 := afterAdjust_touched
      exact ⟨by rw [t3.nStop, hcore], by rw [t3.nPt, hcore], by rw [t3.nRoute, hcore], by rw [t3.route, hcore],
        by rw [t3.pt, hcore], fun x => by rw [t3.stop x, hcore], fun x hx => by rw [t3.other x hx, hcore],
        by rw [t3.sfeas, g2.sfeas, g1.sfeas], by rw [t3.rfeas, g2.rfeas, g1.rfeas]⟩
    · intro he
      rw [htm] at he
      exact absurd (by rw [hw, he, sub_self]) h0
    · intro _
      rw [afterAdjust_visit0, htm, hcore]

end Jinete
