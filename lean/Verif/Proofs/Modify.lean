import Verif.Proofs.WellFormed

/-!
# Effect of flushing and of editing stops on memoised numbers
-/

set_option autoImplicit false

namespace Jinete

variable {E : Env}

/-! ## Flushing -/

section
variable (h : Heap) (s : Nat)

theorem foldl_flushPt (l : List Nat) (h : Heap) :
    l.foldl flushPt h = { h with pfeas := fun p => if p ∈ l then none else h.pfeas p } := by
  induction l generalizing h with
  | nil => simp
  | cons q l ih =>
    rw [List.foldl_cons, ih]
    simp only [flushPt, Heap.mk.injEq, true_and, and_true]
    funext p
    by_cases hp : p ∈ l
    · simp [hp]
    · by_cases hq : p = q
      · subst hq; simp
      · simp [hp, hq]

/-- The planned trips of a stop. -/
def ptsAt (c : Core) (s : Nat) : List Nat := (c.stop s).pickups ++ (c.stop s).deliveries

theorem flushStop_eq : flushStop h s =
    { h with
      arr := Function.update h.arr s none
      dep := Function.update h.dep s none
      cap := Function.update h.cap s none
      pfeas := fun p => if p ∈ ptsAt h.core s then none else h.pfeas p } := by
  unfold flushStop
  rw [foldl_flushPt]
  rfl

theorem flushStops_eq (l : List Nat) (h : Heap) : flushStops h l =
    { h with
      arr := fun x => if x ∈ l then none else h.arr x
      dep := fun x => if x ∈ l then none else h.dep x
      cap := fun x => if x ∈ l then none else h.cap x
      pfeas := fun p => if p ∈ l.flatMap (ptsAt h.core) then none else h.pfeas p } := by
  induction l generalizing h with
  | nil => simp [flushStops]
  | cons s l ih =>
    have : flushStops h (s :: l) = flushStops (flushStop h s) l := rfl
    rw [this, ih, flushStop_eq]
    simp only [Heap.mk.injEq, true_and, and_true]
    refine ⟨?_, ?_, ?_, ?_⟩
    · funext x; by_cases hx : x ∈ l <;> by_cases hs : x = s <;> simp [hx, hs]
    · funext x; by_cases hx : x ∈ l <;> by_cases hs : x = s <;> simp [hx, hs]
    · funext x; by_cases hx : x ∈ l <;> by_cases hs : x = s <;> simp [hx, hs]
    · funext p
      by_cases h1 : p ∈ ptsAt h.core s <;> by_cases h2 : p ∈ l.flatMap (ptsAt h.core) <;>
        simp_all

@[simp] theorem flushStop_core : (flushStop h s).core = h.core := by rw [flushStop_eq]
@[simp] theorem flushStops_core (l : List Nat) : (flushStops h l).core = h.core := by rw [flushStops_eq]
@[simp] theorem flushStops_sfeas (l : List Nat) : (flushStops h l).sfeas = h.sfeas := by rw [flushStops_eq]
@[simp] theorem flushStops_rfeas (l : List Nat) : (flushStops h l).rfeas = h.rfeas := by rw [flushStops_eq]
theorem flushStops_arr (l : List Nat) (x : Nat) : (flushStops h l).arr x = if x ∈ l then none else h.arr x := by
  rw [flushStops_eq]
theorem flushStops_dep (l : List Nat) (x : Nat) : (flushStops h l).dep x = if x ∈ l then none else h.dep x := by
  rw [flushStops_eq]
theorem flushStops_cap (l : List Nat) (x : Nat) : (flushStops h l).cap x = if x ∈ l then none else h.cap x := by
  rw [flushStops_eq]
theorem flushStops_pfeas (l : List Nat) (p : Nat) :
    (flushStops h l).pfeas p = if p ∈ l.flatMap (ptsAt h.core) then none else h.pfeas p := by
  rw [flushStops_eq]

end

/-! ## Congruence of the recurrence -/

/-- Same visit, same vehicle. -/
structure SameVisit (c c' : Core) (s : Nat) : Prop where
  visit : visitOf c' s = visitOf c s
  vehicle : (c'.stop s).vehicle = (c.stop s).vehicle

theorem SameVisit.position {c c' : Core} {s : Nat} (h : SameVisit c c' s) :
    (c'.stop s).position = (c.stop s).position := congrArg Visit.pos h.visit

theorem tmRev_congr {c c' : Core} {s : Nat} {anc : List Nat} (h : ∀ x ∈ s :: anc, SameVisit c c' x) :
    tmRev E c' s anc = tmRev E c s anc := by
  induction anc generalizing s with
  | nil => simp [tmRev, (h s (by simp)).visit, (h s (by simp)).vehicle]
  | cons p anc ih =>
    simp only [tmRev]
    rw [ih (fun x hx => h x (by simp only [List.mem_cons] at hx ⊢; exact .inr hx)), (h s (by simp)).visit,
      (h p (by simp)).position]

theorem loadRev_congr {c c' : Core} {s : Nat} {anc : List Nat} (h : ∀ x ∈ s :: anc, SameVisit c c' x) :
    loadRev E c' s anc = loadRev E c s anc := by
  induction anc generalizing s with
  | nil => simp [loadRev, (h s (by simp)).visit]
  | cons p anc ih =>
    simp only [loadRev]
    rw [ih (fun x hx => h x (by simp only [List.mem_cons] at hx ⊢; exact .inr hx)), (h s (by simp)).visit]

/-- A stop with nothing memoised is coherent. -/
theorem cohAt_none {h : Heap} {s : Nat} (h1 : h.arr s = none) (h2 : h.dep s = none) (h3 : h.cap s = none) :
    CohAt E h s := by
  intro anc _
  simp [h1, h2, h3]

/-- Coherence moves between heaps that agree on the stop, its chain and its memoised numbers. -/
theorem CohAt.congr {h h' : Heap} {s : Nat} {anc : List Nat} (hs : CohAt E h s)
    (ha : Anc h.core s anc) (ha' : Anc h'.core s anc) (hv : ∀ x ∈ s :: anc, SameVisit h.core h'.core x)
    (h1 : h'.arr s = h.arr s ∨ h'.arr s = none) (h2 : h'.dep s = h.dep s ∨ h'.dep s = none)
    (h3 : h'.cap s = h.cap s ∨ h'.cap s = none) : CohAt E h' s := by
  intro anc' hanc'
  rw [hanc'.unique ha', tmRev_congr hv, loadRev_congr hv]
  obtain ⟨q1, q2, q3⟩ := hs anc ha
  refine ⟨fun v hv => ?_, fun v hv => ?_, fun v hv => ?_⟩
  · rcases h1 with e | e <;> rw [e] at hv
    · exact q1 v hv
    · cases hv
  · rcases h2 with e | e <;> rw [e] at hv
    · exact q2 v hv
    · cases hv
  · rcases h3 with e | e <;> rw [e] at hv
    · exact q3 v hv
    · cases hv

theorem flushed_cohAt {h : Heap} {l : List Nat} {s : Nat} (hs : s ∈ l) : CohAt E (flushStops h l) s :=
  cohAt_none (by simp [flushStops_arr, hs]) (by simp [flushStops_dep, hs]) (by simp [flushStops_cap, hs])

/-- The stops of a chained route stay coherent under reads. -/
theorem Grows.agree {h h' : Heap} {r : Nat} (g : Grows E h h') (hc : Chained h.core r) (ha : CachesAgree E h r) :
    CachesAgree E h' r := by
  have hc' : Chained h'.core r := by rw [g.core]; exact hc
  rw [cachesAgree_iff hc'] 
  rw [cachesAgree_iff hc] at ha
  intro s hs
  rw [g.core] at hs
  exact g.coh (ha s hs)

end Jinete
