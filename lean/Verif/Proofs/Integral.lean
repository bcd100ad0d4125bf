import Verif.Proofs.Rounded
import Verif.Proofs.Double
import Verif.Props.Surface

/-!
# Problems in integers
-/

set_option autoImplicit false

namespace Jinete

namespace IsInt

theorem add {a b : ℚ} : IsInt a → IsInt b → IsInt (a + b) := by
  rintro ⟨m, rfl⟩ ⟨n, rfl⟩; exact ⟨m + n, by push_cast; rfl⟩
theorem sub {a b : ℚ} : IsInt a → IsInt b → IsInt (a - b) := by
  rintro ⟨m, rfl⟩ ⟨n, rfl⟩; exact ⟨m - n, by push_cast; rfl⟩
theorem abs {a : ℚ} : IsInt a → IsInt |a| := by
  rintro ⟨m, rfl⟩; exact ⟨|m|, by push_cast; rfl⟩
theorem zero : IsInt 0 := ⟨0, by simp⟩
theorem max {a b : ℚ} (ha : IsInt a) (hb : IsInt b) : IsInt (max a b) := by
  rcases max_choice a b with h | h <;> rw [h] <;> assumption
theorem sum {l : List ℚ} (h : ∀ x ∈ l, IsInt x) : IsInt l.sum := by
  induction l with
  | nil => exact zero
  | cons x l ih => rw [List.sum_cons]; exact add (h x (by simp)) (ih fun y hy => h y (by simp [hy]))
theorem maxD {l : List ℚ} (h : ∀ x ∈ l, IsInt x) : IsInt (maxD 0 l) := by
  by_cases e : l = []
  · rw [e]; exact zero
  · exact h _ (maxD_mem e)

/-- Integers that differ by less than one. -/
theorem le {a b τ : ℚ} (ha : IsInt a) (hb : IsInt b) (hτ : τ < 1) (h : a ≤ b + τ) : a ≤ b := by
  obtain ⟨m, rfl⟩ := ha
  obtain ⟨n, rfl⟩ := hb
  have : (m : ℚ) < ((n + 1 : ℤ) : ℚ) := by push_cast; linarith
  have := Int.cast_lt.1 this
  exact_mod_cast (by omega : m ≤ n)

theorem leQ {a τ : ℚ} {b : Bound} (ha : IsInt a) (hb : b.Integral) (hτ : τ < 1) (h : (b.addQ τ).leQ a = true) :
    (b.addQ 0).leQ a = true := by
  cases b with
  | inf => rfl
  | fin b =>
    simp only [Bound.addQ, Bound.leQ_fin] at *
    rw [add_zero]
    exact le ha hb hτ h

/-- An integer of at most 53 binary digits is kept. -/
theorem round {a : ℚ} (ha : IsInt a) (h : |a| < 2 ^ 53) : roundDouble a = a := by
  obtain ⟨m, rfl⟩ := ha
  have h' : |m| < 2 ^ 53 := by exact_mod_cast h
  have := roundDouble_exact h' 0
  simpa using this

end IsInt

namespace Bound.Integral

theorem min {a b : Bound} (ha : a.Integral) (hb : b.Integral) : (Bound.min a b).Integral := by
  cases a <;> cases b <;> simp only [Bound.min, Bound.Integral] at * <;> try assumption
  split <;> assumption
theorem addQ {a : Bound} {q : ℚ} (ha : a.Integral) (hq : IsInt q) : (a.addQ q).Integral := by
  cases a with
  | inf => trivial
  | fin a => exact IsInt.add ha hq
theorem subQ {a : Bound} {q : ℚ} (ha : a.Integral) (hq : IsInt q) : (a.subQ q).Integral := by
  refine addQ ha ?_
  have := IsInt.zero.sub hq
  rwa [zero_sub] at this
theorem add {a b : Bound} (ha : a.Integral) (hb : b.Integral) : (a.add b).Integral := by
  cases a <;> cases b <;> simp only [Bound.add, Bound.Integral] at * 
  exact IsInt.add ha hb

end Bound.Integral

/-- Manhattan distances of integer positions are computed exactly. -/
theorem manhattanRounded_exact {a b : Pos} (ha : ∀ x ∈ a, IsInt x) (hb : ∀ x ∈ b, IsInt x) (h : manhattan a b < 2 ^ 53) :
    manhattanRounded roundDouble a b = manhattan a b := by
  have go : ∀ (l : List (ℚ × ℚ)) (z : ℚ), 0 ≤ z → IsInt z → (∀ p ∈ l, IsInt p.1 ∧ IsInt p.2) →
      z + (l.map fun p => |p.1 - p.2|).sum < 2 ^ 53 →
      (l.map fun p => |roundDouble (p.1 - p.2)|).foldl (fun s x => roundDouble (s + x)) z = z + (l.map fun p => |p.1 - p.2|).sum := by
    intro l
    induction l with
    | nil => intro z _ _ _ _; simp
    | cons p l ih =>
      intro z hz hi hp hs
      simp only [List.map_cons, List.sum_cons, List.foldl_cons] at hs ⊢
      have h0 : 0 ≤ (l.map fun p => |p.1 - p.2|).sum := List.sum_nonneg (by
        intro x hx; obtain ⟨q, _, rfl⟩ := List.mem_map.1 hx; exact abs_nonneg _)
      have h1 := abs_nonneg (p.1 - p.2)
      have hpi := (hp p (by simp)).1.sub (hp p (by simp)).2
      rw [hpi.round (by linarith)]
      have hzi := hi.add hpi.abs
      rw [hzi.round (by rw [abs_of_nonneg (by linarith)]; linarith)]
      rw [ih _ (by linarith) hzi (fun q hq => hp q (by simp [hq])) (by linarith)]
      ring
  have := go (a.zip b) 0 le_rfl .zero (fun p hp => ⟨ha _ (List.of_mem_zip hp).1, hb _ (List.of_mem_zip hp).2⟩)
    (by rw [zero_add]; exact h)
  rw [zero_add] at this
  exact this

section
variable {E : Env} {place : Pos → Prop} (hI : E.Integral place) (hpl : ∀ t, place (E.trip t).origin.position ∧ place (E.trip t).destination.position)
include hI

theorem Env.Integral.originEarliest (t : Nat) : IsInt (E.trip t).originEarliest := by
  have h := hI.timeout t
  unfold Trip.originEarliest
  cases e : (E.trip t).timeout with
  | inf => exact (hI.origin t).earliest
  | fin q =>
    rw [e] at h
    exact ((((hI.destination t).earliest.sub (hI.destination t).duration).sub h)).max (hI.origin t).earliest

theorem Env.Integral.destinationLatest (t : Nat) : (E.trip t).destinationLatest.Integral :=
  .min (.add (.addQ (hI.origin t).latest (hI.origin t).duration) (hI.timeout t)) (hI.destination t).latest

include hpl

theorem Env.Integral.destinationEarliest (t : Nat) : IsInt ((E.trip t).destinationEarliest E.metric) :=
  (((hI.origin t).earliest.add (hI.origin t).duration).add (hI.metric _ _ (hpl t).1 (hpl t).2)).max (hI.destination t).earliest

theorem Env.Integral.originLatest (t : Nat) : ((E.trip t).originLatest E.metric).Integral :=
  .min (.subQ (.subQ (hI.destination t).latest (hI.destination t).duration) (hI.metric _ _ (hpl t).1 (hpl t).2)) (hI.origin t).latest

theorem Env.Integral.serve {t : ℚ} (ht : IsInt t) {p : Pos} (hp : place p) {v : Visit} (hv : place v.pos)
    (hq : ∀ q ∈ v.request, IsInt q) : IsInt (Jinete.serve E t p v).arr ∧ IsInt (Jinete.serve E t p v).start ∧ IsInt (Jinete.serve E t p v).dep := by
  have ha : IsInt (Jinete.serve E t p v).arr := ht.add (hI.metric _ _ hp hv)
  have hs : IsInt (Jinete.serve E t p v).start := by
    refine IsInt.max (IsInt.max ?_ (.maxD ?_)) ha
    · cases e : v.request with
      | none => exact ha
      | some q => exact hq q e
    · intro x hx
      rw [List.mem_append, List.mem_map, List.mem_map] at hx
      rcases hx with ⟨t, _, rfl⟩ | ⟨t, _, rfl⟩
      · exact hI.originEarliest t
      · exact hI.destinationEarliest hpl t
  refine ⟨ha, hs, hs.add (.maxD ?_)⟩
  intro x hx
  rw [List.mem_append, List.mem_map, List.mem_map] at hx
  rcases hx with ⟨t, _, rfl⟩ | ⟨t, _, rfl⟩
  · exact (hI.origin t).duration
  · exact (hI.destination t).duration

theorem Env.Integral.timetable {t : ℚ} (ht : IsInt t) {p : Pos} (hp : place p) {l : List Visit}
    (hl : ∀ v ∈ l, place v.pos ∧ ∀ q ∈ v.request, IsInt q) :
    ∀ x ∈ Jinete.timetable E t p l, IsInt x.arr ∧ IsInt x.start ∧ IsInt x.dep := by
  induction l generalizing t p with
  | nil => intro x hx; cases hx
  | cons v l ih =>
    have h := hI.serve hpl ht hp (hl v (by simp)).1 (hl v (by simp)).2
    intro x hx
    rcases List.mem_cons.1 hx with rfl | hx
    · exact h
    · exact ih h.2.2 (hl v (by simp)).1 (fun w hw => hl w (by simp [hw])) x hx

omit hpl in
theorem Env.Integral.loads {q : ℚ} (hq : IsInt q) (l : List Visit) : ∀ x ∈ Jinete.loads E q l, IsInt x := by
  induction l generalizing q with
  | nil => intro x hx; cases hx
  | cons v l ih =>
    have cap : ∀ ts : List Nat, IsInt (tripsCapacity E ts) := fun ts => .sum (by
      intro x hx; obtain ⟨t, _, rfl⟩ := List.mem_map.1 hx; exact hI.capacity t)
    have h := (hq.add (cap v.picks)).sub (cap v.drops)
    intro x hx
    rcases List.mem_cons.1 hx with rfl | hx
    · exact h
    · exact ih h x hx

/-- In integers, constraints met up to less than one are met exactly. -/
theorem FeasibleWithin.integral {τ : ℚ} (hτ : τ < 1) (hd : ∀ v, place (E.vehicle v).origin.position) {v : Nat} {l : List Visit}
    (hl : ∀ v ∈ l, place v.pos ∧ ∀ q ∈ v.request, IsInt q) (h : FeasibleWithin E τ (E.vehicle v) l) :
    FeasibleWithin E 0 (E.vehicle v) l := by
  have ht : ∀ x ∈ vehicleTimetable E (E.vehicle v) l, IsInt x.arr ∧ IsInt x.start ∧ IsInt x.dep :=
    hI.timetable hpl (hI.start v).earliest (hd v) hl
  have hq := hI.loads .zero l
  refine ⟨h.startPos, ?_, h.endPos, ?_, ?_, ?_⟩
  · intro x hx
    have := h.startTime x hx
    have := (hI.start v).earliest.le (ht x (List.mem_of_head? hx)).1 hτ (by linarith)
    linarith
  · intro y hy
    exact (ht y (List.mem_of_getLast? hy)).2.2.leQ (hI.final v).latest hτ (h.endTime y hy)
  · intro x hx y hy
    exact ((ht y (List.mem_of_getLast? hy)).2.2.sub (ht x (List.mem_of_head? hx)).2.2).leQ (hI.shift v) hτ (h.duration x hx y hy)
  · intro i j v' w x y q q' t a b c d e f g k
    have z := h.trips i j v' w x y q q' t a b c d e f g k
    have hx := ht x (List.mem_of_getElem? c)
    have hy := ht y (List.mem_of_getElem? d)
    refine ⟨?_, hx.2.1.leQ (hI.originLatest hpl t) hτ z.pickLatest, ?_, hy.2.1.leQ (hI.destinationLatest t) hτ z.dropLatest, ?_, ?_,
      (hy.2.1.sub hx.2.2).leQ (hI.timeout t) hτ z.ride⟩
    · have := (hI.originEarliest t).le hx.2.1 hτ z.pickEarliest; linarith
    · have := (hI.destinationEarliest hpl t).le hy.2.1 hτ z.dropEarliest; linarith
    · have := (hq q (List.mem_of_getElem? e)).le (hI.room v) hτ z.pickLoad; linarith
    · have := (hq q' (List.mem_of_getElem? f)).le (hI.room v) hτ z.dropLoad; linarith

end

theorem FeasibleWithin.mono {E : Env} {τ τ' : ℚ} (h : τ ≤ τ') {veh : Vehicle} {l : List Visit} (hf : FeasibleWithin E τ veh l) :
    FeasibleWithin E τ' veh l := by
  have hb : ∀ {b : Bound} {x : ℚ}, (b.addQ τ).leQ x = true → (b.addQ τ').leQ x = true := by
    intro b x k
    rw [Bound.leQ_addQ] at k ⊢
    exact Bound.leQ_mono (by linarith) k
  refine ⟨hf.startPos, ?_, hf.endPos, fun y hy => hb (hf.endTime y hy), fun x hx y hy => hb (hf.duration x hx y hy), ?_⟩
  · intro x hx; have := hf.startTime x hx; linarith
  · intro i j v' w x y q q' t a b c d e f g k
    have z := hf.trips i j v' w x y q q' t a b c d e f g k
    exact ⟨by linarith [z.pickEarliest], hb z.pickLatest, by linarith [z.dropEarliest], hb z.dropLatest, by linarith [z.pickLoad],
      by linarith [z.dropLoad], hb z.ride⟩

end Jinete
