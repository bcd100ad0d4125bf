import Verif.Proofs.Timing
import Mathlib.Data.List.Nodup
import Mathlib.Data.List.Induction
import Mathlib.Data.List.Perm.Subperm

/-!
# Chained routes: from lists to pointer chains, and to the forward schedule
-/

set_option autoImplicit false

namespace Jinete

variable {E : Env}

/-! ## Linked lists -/

theorem Linked.anc {c : Core} {l : List Nat} (hl : Linked c l) {pre suf : List Nat} {s : Nat}
    (h : l = pre ++ s :: suf) : Anc c s pre.reverse := by
  induction pre using List.reverseRec generalizing s suf with
  | nil => simpa [Anc] using hl [] s suf h
  | append_singleton pre p ih =>
    simp only [List.reverse_append, List.reverse_cons, List.reverse_nil, List.nil_append, List.cons_append]
    refine ⟨by simpa using hl _ s suf h, ih (suf := s :: suf) (by simpa using h)⟩

theorem Linked.prefix {c : Core} {a b : List Nat} (hl : Linked c (a ++ b)) : Linked c a := by
  intro pre s suf h
  exact hl pre s (suf ++ b) (by simp [h])

theorem linked_nil (c : Core) : Linked c [] := by
  intro pre s suf h; cases pre <;> simp at h

theorem linked_concat {c : Core} {l : List Nat} {s : Nat} :
    Linked c (l ++ [s]) ↔ Linked c l ∧ (c.stop s).previous = l.getLast? := by
  constructor
  · intro h; exact ⟨h.prefix, h l s [] rfl⟩
  · rintro ⟨h1, h2⟩ pre x suf e
    rcases List.eq_nil_or_concat suf with rfl | ⟨suf', y, rfl⟩
    · have := List.append_inj' e rfl
      obtain ⟨rfl, e2⟩ := this
      cases e2; exact h2
    · have e' : l ++ [s] = (pre ++ x :: suf') ++ [y] := by simpa using e
      obtain ⟨rfl, _⟩ := List.append_inj' e' rfl
      exact h1 pre x suf' rfl

/-- Appending a linked continuation. -/
def LinkedFrom (c : Core) : Option Nat → List Nat → Prop
  | _, [] => True
  | p, s :: l => (c.stop s).previous = p ∧ LinkedFrom c (some s) l

theorem linked_append {c : Core} {a b : List Nat} :
    Linked c (a ++ b) ↔ Linked c a ∧ LinkedFrom c a.getLast? b := by
  induction b generalizing a with
  | nil => simp [LinkedFrom]
  | cons s b ih =>
    have : a ++ s :: b = (a ++ [s]) ++ b := by simp
    rw [this, ih, linked_concat]
    simp [LinkedFrom, and_assoc]

theorem linked_iff_from {c : Core} {l : List Nat} : Linked c l ↔ LinkedFrom c none l := by
  have := linked_append (c := c) (a := []) (b := l)
  simpa [linked_nil] using this

theorem LinkedFrom.congr {c c' : Core} {l : List Nat} {p : Option Nat}
    (h : ∀ s ∈ l, (c'.stop s).previous = (c.stop s).previous) (hl : LinkedFrom c p l) : LinkedFrom c' p l := by
  induction l generalizing p with
  | nil => trivial
  | cons s l ih => exact ⟨(h s (by simp)).trans hl.1, ih (fun x hx => h x (by simp [hx])) hl.2⟩

theorem Linked.congr {c c' : Core} {l : List Nat}
    (h : ∀ s ∈ l, (c'.stop s).previous = (c.stop s).previous) (hl : Linked c l) : Linked c' l := by
  rw [linked_iff_from] at *; exact hl.congr h

theorem linkedCheck_iff {c : Core} (s : Nat) (l : List Nat) :
    linkedCheck c (s :: l) = true ↔ LinkedFrom c (some s) l := by
  induction l generalizing s with
  | nil => simp [linkedCheck, LinkedFrom]
  | cons x l ih => simp [linkedCheck, LinkedFrom, ih]

theorem linkedCheck_of_linked {c : Core} {l : List Nat} (h : Linked c l) : linkedCheck c l = true := by
  cases l with
  | nil => rfl
  | cons s l =>
    rw [linkedCheck_iff]
    rw [linked_iff_from] at h
    exact h.2

/-! ## Schedule of a chain -/

/-- Time and place after serving a list of visits. -/
def clock (E : Env) : ℚ × Pos → List Visit → ℚ × Pos
  | x, [] => x
  | x, v :: l => clock E ((serve E x.1 x.2 v).dep, v.pos) l

theorem clock_append (x : ℚ × Pos) (a b : List Visit) : clock E x (a ++ b) = clock E (clock E x a) b := by
  induction a generalizing x with
  | nil => rfl
  | cons v a ih => simp [clock, ih]

@[simp] theorem timetable_length (t : ℚ) (p : Pos) (l : List Visit) : (timetable E t p l).length = l.length := by
  induction l generalizing t p with
  | nil => rfl
  | cons v l ih => simp [timetable, ih]

theorem timetable_append (t : ℚ) (p : Pos) (a b : List Visit) :
    timetable E t p (a ++ b) = timetable E t p a ++ timetable E (clock E (t, p) a).1 (clock E (t, p) a).2 b := by
  induction a generalizing t p with
  | nil => rfl
  | cons v a ih => simp [timetable, clock, ih]

theorem timetable_at (t : ℚ) (p : Pos) (a b : List Visit) (v : Visit) :
    (timetable E t p (a ++ v :: b))[a.length]? =
      some (serve E (clock E (t, p) a).1 (clock E (t, p) a).2 v) := by
  rw [timetable_append, List.getElem?_append_right (by simp)]
  simp [timetable]

/-- Load after a list of visits. -/
def loadAfter (E : Env) : ℚ → List Visit → ℚ
  | q, [] => q
  | q, v :: l => loadAfter E (q + tripsCapacity E v.picks - tripsCapacity E v.drops) l

theorem loadAfter_append (q : ℚ) (a b : List Visit) :
    loadAfter E q (a ++ b) = loadAfter E (loadAfter E q a) b := by
  induction a generalizing q with
  | nil => rfl
  | cons v a ih => simp [loadAfter, ih]

@[simp] theorem loads_length (q : ℚ) (l : List Visit) : (loads E q l).length = l.length := by
  induction l generalizing q with
  | nil => rfl
  | cons v l ih => simp [loads, ih]

theorem loads_append (q : ℚ) (a b : List Visit) :
    loads E q (a ++ b) = loads E q a ++ loads E (loadAfter E q a) b := by
  induction a generalizing q with
  | nil => rfl
  | cons v a ih => simp [loads, loadAfter, ih]

theorem loads_at (q : ℚ) (a b : List Visit) (v : Visit) :
    (loads E q (a ++ v :: b))[a.length]? = some (loadAfter E q (a ++ [v])) := by
  rw [loads_append, List.getElem?_append_right (by simp)]
  simp [loads, loadAfter_append, loadAfter]

/-- The clock after a non-empty chain is the departure of its last stop. -/
theorem clock_chain {c : Core} {veh : Nat} (pre : List Nat) (s : Nat)
    (hv : ∀ x ∈ pre ++ [s], (c.stop x).vehicle = veh) :
    clock E ((E.vehicle veh).origin.earliest, (E.vehicle veh).origin.position) ((pre ++ [s]).map (visitOf c)) =
      ((tmRev E c s pre.reverse).dep, (c.stop s).position) := by
  induction pre using List.reverseRec generalizing s with
  | nil => simp [clock, tmRev, hv s (by simp), visitOf]
  | append_singleton pre p ih =>
    rw [List.map_append, clock_append, ih p (fun x hx => hv x (by simp only [List.mem_append] at hx ⊢; exact .inl hx))]
    simp [clock, tmRev, visitOf]

theorem serve_chain {c : Core} {veh : Nat} (pre : List Nat) (s : Nat)
    (hv : ∀ x ∈ pre ++ [s], (c.stop x).vehicle = veh) :
    serve E (clock E ((E.vehicle veh).origin.earliest, (E.vehicle veh).origin.position) (pre.map (visitOf c))).1
      (clock E ((E.vehicle veh).origin.earliest, (E.vehicle veh).origin.position) (pre.map (visitOf c))).2
      (visitOf c s) = tmRev E c s pre.reverse := by
  rcases List.eq_nil_or_concat pre with rfl | ⟨pre, p, rfl⟩
  · simp [clock, tmRev, hv s (by simp)]
  · simp only [List.concat_eq_append] at hv ⊢
    rw [clock_chain pre p (fun x hx => hv x (by simp only [List.mem_append] at hx ⊢; exact .inl hx))]
    simp [tmRev]

theorem loadAfter_chain {c : Core} (pre : List Nat) (s : Nat) :
    loadAfter E 0 ((pre ++ [s]).map (visitOf c)) = loadRev E c s pre.reverse := by
  induction pre using List.reverseRec generalizing s with
  | nil => simp [loadAfter, loadRev]
  | append_singleton pre p ih =>
    rw [List.map_append, loadAfter_append, ih p]
    simp [loadAfter, loadRev]

section
variable {c : Core} {r : Nat}

/-- The schedule entry of a stop of a chained route. -/
theorem Chained.timetable_at (hc : Chained c r) {pre suf : List Nat} {s : Nat}
    (h : (c.route r).stops = pre ++ s :: suf) :
    (routeTimetable E c r)[pre.length]? = some (tmRev E c s pre.reverse) := by
  have hv : ∀ x ∈ pre ++ [s], (c.stop x).vehicle = (c.route r).vehicle := by
    intro x hx; apply hc.vehicle; rw [h]
    simp only [List.mem_append, List.mem_cons, List.not_mem_nil, or_false] at hx ⊢
    tauto
  have := Jinete.timetable_at (E := E) (E.vehicle (c.route r).vehicle).origin.earliest
    (E.vehicle (c.route r).vehicle).origin.position (pre.map (visitOf c)) (suf.map (visitOf c)) (visitOf c s)
  rw [serve_chain pre s hv] at this
  simpa [routeTimetable, vehicleTimetable, itinerary, h] using this

theorem loads_at_chain {pre suf : List Nat} {s : Nat} (h : (c.route r).stops = pre ++ s :: suf) :
    (routeLoads E c r)[pre.length]? = some (loadRev E c s pre.reverse) := by
  have := loads_at (E := E) 0 (pre.map (visitOf c)) (suf.map (visitOf c)) (visitOf c s)
  have e : pre.map (visitOf c) ++ [visitOf c s] = (pre ++ [s]).map (visitOf c) := by simp
  rw [e, loadAfter_chain] at this
  simpa [routeLoads, itinerary, h] using this

/-- A list of distinct created stops is no longer than the number of stops created. -/
theorem length_le_nStop {l : List Nat} (hn : l.Nodup) (ha : ∀ s ∈ l, s < c.nStop) : l.length ≤ c.nStop := by
  have := (List.Nodup.subperm hn (l₂ := List.range c.nStop) (fun x hx => List.mem_range.2 (ha x hx))).length_le
  simpa using this

theorem Chained.anc (hc : Chained c r) {pre suf : List Nat} {s : Nat}
    (h : (c.route r).stops = pre ++ s :: suf) : Anc c s pre.reverse := hc.linked.anc h

theorem Chained.len (hc : Chained c r) {pre suf : List Nat} {s : Nat}
    (h : (c.route r).stops = pre ++ s :: suf) : pre.reverse.length ≤ c.nStop := by
  have := length_le_nStop hc.nodup hc.alloc
  rw [h] at this
  simp at this ⊢; omega

theorem sub_of_split {l pre suf : List Nat} {s : Nat} (h : l = pre ++ s :: suf) :
    ∀ x ∈ s :: pre.reverse, x ∈ l := by
  intro x hx
  rw [h]
  simp only [List.mem_cons, List.mem_reverse, List.mem_append] at hx ⊢
  tauto

/-- The split of a list at an index. -/
theorem split_at {l : List Nat} {k s : Nat} (h : l[k]? = some s) :
    ∃ pre suf, l = pre ++ s :: suf ∧ pre.length = k := by
  obtain ⟨hk, e⟩ := List.getElem?_eq_some_iff.1 h
  refine ⟨l.take k, l.drop (k + 1), ?_, by simp; omega⟩
  rw [← e, List.getElem_cons_drop, List.take_append_drop]

theorem getElem?_split {α : Type} (pre suf : List α) (s : α) : (pre ++ s :: suf)[pre.length]? = some s := by simp

theorem cachesAgree_iff {h : Heap} (hc : Chained h.core r) :
    CachesAgree E h r ↔ ∀ s ∈ (h.core.route r).stops, CohAt E h s := by
  constructor
  · intro ha s hs anc hanc
    obtain ⟨pre, suf, e⟩ := List.append_of_mem hs
    have := hanc.unique (hc.anc e)
    subst this
    exact ha pre.length s _ _ (by rw [e]; simp) (hc.timetable_at e) (loads_at_chain e)
  · intro ha k s x q hk hx hq
    obtain ⟨pre, suf, e, rfl⟩ := split_at hk
    rw [hc.timetable_at e] at hx
    rw [loads_at_chain e] at hq
    cases hx; cases hq
    exact ha s (by rw [e]; simp) _ (hc.anc e)

end

end Jinete
