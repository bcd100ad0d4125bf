import Verif.Proofs.WellFormed

/-!
# Boolean checkers

Decision procedures for `WellFormed` and `CachesAgree`, used only to discharge hypotheses on concrete
heaps in examples and witnesses.
-/

set_option autoImplicit false

namespace Jinete

def linkedFromB (c : Core) : Option Nat → List Nat → Bool
  | _, [] => true
  | p, s :: l => decide ((c.stop s).previous = p) && linkedFromB c (some s) l

theorem linkedFromB_sound {c : Core} {p : Option Nat} {l : List Nat} (h : linkedFromB c p l = true) :
    LinkedFrom c p l := by
  induction l generalizing p with
  | nil => trivial
  | cons s l ih =>
    simp only [linkedFromB, Bool.and_eq_true, decide_eq_true_eq] at h
    exact ⟨h.1, ih h.2⟩

def chainedB (c : Core) (r : Nat) : Bool :=
  decide ((c.route r).stops.Nodup) && (c.route r).stops.all (fun s => decide (s < c.nStop)) &&
  linkedFromB c none (c.route r).stops &&
  (c.route r).stops.all fun s => decide ((c.stop s).vehicle = (c.route r).vehicle)

theorem chainedB_sound {c : Core} {r : Nat} (h : chainedB c r = true) : Chained c r := by
  simp only [chainedB, Bool.and_eq_true, decide_eq_true_eq, List.all_eq_true] at h
  obtain ⟨⟨⟨h1, h2⟩, h3⟩, h4⟩ := h
  exact ⟨h1, h2, linked_iff_from.2 (linkedFromB_sound h3), h4⟩

def pickB (c : Core) : List Nat → Bool
  | [] => true
  | s :: suf => ((c.stop s).pickups.all fun p => decide (p < c.nPt) && decide ((c.pt p).pickup = some s) &&
      suf.any fun d => decide ((c.pt p).delivery = some d) && (c.stop d).deliveries.contains p) && pickB c suf

theorem pickB_sound {c : Core} {l : List Nat} (h : pickB c l = true) :
    ∀ pre s suf, l = pre ++ s :: suf → ∀ p ∈ (c.stop s).pickups,
      p < c.nPt ∧ (c.pt p).pickup = some s ∧ ∃ d ∈ suf, (c.pt p).delivery = some d ∧ p ∈ (c.stop d).deliveries := by
  induction l with
  | nil => intro pre s suf e; cases pre <;> simp at e
  | cons x l ih =>
    simp only [pickB, Bool.and_eq_true, List.all_eq_true, decide_eq_true_eq, List.any_eq_true, List.contains_iff_mem] at h
    intro pre s suf e p hp
    cases pre with
    | nil =>
      simp only [List.nil_append, List.cons.injEq] at e
      obtain ⟨rfl, rfl⟩ := e
      obtain ⟨⟨h1, h2⟩, d, hd, h3, h4⟩ := h.1 p hp
      exact ⟨h1, h2, d, hd, h3, h4⟩
    | cons y pre =>
      simp only [List.cons_append, List.cons.injEq] at e
      exact ih h.2 pre s suf e.2 p hp

def dropB (c : Core) (acc : List Nat) : List Nat → Bool
  | [] => true
  | s :: suf => ((c.stop s).deliveries.all fun p => decide (p < c.nPt) && decide ((c.pt p).delivery = some s) &&
      acc.any fun u => decide ((c.pt p).pickup = some u) && (c.stop u).pickups.contains p) && dropB c (acc ++ [s]) suf

theorem dropB_sound {c : Core} {acc l : List Nat} (h : dropB c acc l = true) :
    ∀ pre s suf, l = pre ++ s :: suf → ∀ p ∈ (c.stop s).deliveries,
      p < c.nPt ∧ (c.pt p).delivery = some s ∧ ∃ u ∈ acc ++ pre, (c.pt p).pickup = some u ∧ p ∈ (c.stop u).pickups := by
  induction l generalizing acc with
  | nil => intro pre s suf e; cases pre <;> simp at e
  | cons x l ih =>
    simp only [dropB, Bool.and_eq_true, List.all_eq_true, decide_eq_true_eq, List.any_eq_true, List.contains_iff_mem] at h
    intro pre s suf e p hp
    cases pre with
    | nil =>
      simp only [List.nil_append, List.cons.injEq] at e
      obtain ⟨rfl, rfl⟩ := e
      obtain ⟨⟨h1, h2⟩, d, hd, h3, h4⟩ := h.1 p hp
      exact ⟨h1, h2, d, by simpa using hd, h3, h4⟩
    | cons y pre =>
      simp only [List.cons_append, List.cons.injEq] at e
      obtain ⟨h1, h2, u, hu, h3⟩ := ih h.2 pre s suf e.2 p hp
      refine ⟨h1, h2, u, ?_, h3⟩
      rw [e.1] at hu
      simpa using hu

/-- Checker for `WellFormed`. -/
def wfB (c : Core) (r : Nat) : Bool :=
  chainedB c r && decide (r < c.nRoute) && decide (2 ≤ (c.route r).stops.length) &&
  ((c.route r).stops.head?.all fun s => (c.stop s).pickups.isEmpty && (c.stop s).deliveries.isEmpty) &&
  pickB c (c.route r).stops && dropB c [] (c.route r).stops &&
  ((c.route r).stops.all fun s => decide ((c.stop s).pickups.Nodup) && decide ((c.stop s).deliveries.Nodup)) &&
  decide (((itinerary c r).flatMap Visit.picks).Nodup)

theorem wfB_sound {c : Core} {r : Nat} (h : wfB c r = true) : WellFormed c r := by
  simp only [wfB, Bool.and_eq_true, decide_eq_true_eq, List.all_eq_true, Option.all_eq_true, List.isEmpty_iff] at h
  obtain ⟨⟨⟨⟨⟨⟨⟨h1, h2⟩, h3⟩, h4⟩, h5⟩, h6⟩, h7⟩, h8⟩ := h
  refine { toChained := chainedB_sound h1, exists_ := h2, length := h3, depot := ?_, pick := pickB_sound h5,
           drop := ?_, sets := h7, trips := h8 }
  · intro s hs; exact h4 s hs
  · intro pre s suf e p hp
    simpa using dropB_sound h6 pre s suf e p hp

/-- Checker for `CachesAgree`. -/
def agreeListB (h : Heap) : List Nat → List Tm → List ℚ → Bool
  | s :: l, x :: xs, q :: qs =>
    (h.arr s).all (· = x.arr) && (h.dep s).all (· = x.dep) && (h.cap s).all (· = q) && agreeListB h l xs qs
  | _, _, _ => true

theorem agreeListB_sound {h : Heap} {l : List Nat} {xs : List Tm} {qs : List ℚ} (hh : agreeListB h l xs qs = true) :
    ∀ (k s : Nat) (x : Tm) (q : ℚ), l[k]? = some s → xs[k]? = some x → qs[k]? = some q →
    (∀ v, h.arr s = some v → v = x.arr) ∧ (∀ v, h.dep s = some v → v = x.dep) ∧
    (∀ v, h.cap s = some v → v = q) := by
  induction l generalizing xs qs with
  | nil => intro k s x q hk; simp at hk
  | cons y l ih =>
    cases xs with
    | nil => intro k s x q _ hx; simp at hx
    | cons z xs =>
      cases qs with
      | nil => intro k s x q _ _ hq; simp at hq
      | cons w qs =>
        simp only [agreeListB, Bool.and_eq_true, Option.all_eq_true, decide_eq_true_eq] at hh
        intro k s x q hk hx hq
        cases k with
        | zero =>
          simp only [List.getElem?_cons_zero, Option.some.injEq] at hk hx hq
          subst hk hx hq
          exact ⟨fun v hv => hh.1.1.1 v hv, fun v hv => hh.1.1.2 v hv, fun v hv => hh.1.2 v hv⟩
        | succ k =>
          simp only [List.getElem?_cons_succ] at hk hx hq
          exact ih hh.2 k s x q hk hx hq

def agreeB (E : Env) (h : Heap) (r : Nat) : Bool :=
  agreeListB h (h.core.route r).stops (routeTimetable E h.core r) (routeLoads E h.core r)

theorem agreeB_sound {E : Env} {h : Heap} {r : Nat} (hh : agreeB E h r = true) : CachesAgree E h r :=
  agreeListB_sound hh

end Jinete
