import Verif.Model.RoundedRide
import Verif.Proofs.Integral
import Verif.Proofs.RoundedValue

/-!
# Problems in integers: times are computed exactly
-/

set_option autoImplicit false

namespace Jinete

namespace Reckoning

/-- Integers of absolute value up to `H` are kept, distances between the places of the problem are exact, and all numbers of the
problem are integers that are small compared to `H`. -/
structure Whole (K : Reckoning) (E : Env) (place : Pos → Prop) (H : ℚ) : Prop extends E.Small E.metric place (H / 8) where
  whole : E.Integral place
  keep : ∀ q, IsInt q → |q| ≤ H → K.round q = q
  dist : ∀ a b, place a → place b → K.dist a b = E.metric a b
  one : 1 ≤ H

variable {K : Reckoning} {E : Env} {c : Core} {r : Nat} {place : Pos → Prop} {H : ℚ}

section
variable (hW : K.Whole E place H)
include hW

theorem Whole.close : Close ⟨id, E.metric⟩ E place H 0 0 :=
  { toSmall := hW.toSmall
    error := fun q _ => by simp
    dist := fun a b _ _ => by simp
    one := hW.one
    small := by linarith [hW.one] }

theorem Whole.originEarliest (t : Nat) : K.originEarliest (E.trip t) = (E.trip t).originEarliest := by
  have h2 := (hW.toSmall.destination t).earliest
  have h3 := (hW.toSmall.destination t).duration
  have h4 := hW.toSmall.timeout t
  have i2 := (hW.whole.destination t).earliest
  have i3 := (hW.whole.destination t).duration
  have i4 := hW.whole.timeout t
  have h1 := hW.one
  unfold Reckoning.originEarliest Trip.originEarliest
  cases e : (E.trip t).timeout with
  | inf => rfl
  | fin q =>
    rw [e] at h4 i4
    simp only [Bound.Within] at h4
    simp only [abs_le] at h2 h3 h4
    have i4' : IsInt q := i4
    have e1 := hW.keep _ (i2.sub i3) (by rw [abs_le]; constructor <;> linarith)
    have e2 := hW.keep _ ((i2.sub i3).sub i4') (by rw [abs_le]; constructor <;> linarith)
    simp only [e1, e2]

theorem Whole.destinationEarliest (t : Nat) : K.destinationEarliest (E.trip t) = (E.trip t).destinationEarliest E.metric := by
  have h2 := (hW.toSmall.origin t).earliest
  have h3 := (hW.toSmall.origin t).duration
  have h5 := hW.far _ _ (hW.ends t).1 (hW.ends t).2
  have i2 := (hW.whole.origin t).earliest
  have i3 := (hW.whole.origin t).duration
  have i5 := hW.whole.metric _ _ (hW.ends t).1 (hW.ends t).2
  have h1 := hW.one
  unfold Reckoning.destinationEarliest Trip.destinationEarliest Trip.directTime
  rw [hW.dist _ _ (hW.ends t).1 (hW.ends t).2]
  rw [abs_le] at h2 h3 h5
  rw [hW.keep _ (i2.add i3) (by rw [abs_le]; constructor <;> linarith),
    hW.keep _ ((i2.add i3).add i5) (by rw [abs_le]; constructor <;> linarith)]

theorem Whole.stopEarliest (s : Nat) : K.stopEarliest E c s = (visitOf c s).earliest E := by
  rw [← stopEarliest_eq]
  unfold Reckoning.stopEarliest Jinete.stopEarliest
  simp only [ptTrip, hW.originEarliest, hW.destinationEarliest]

theorem Whole.serve {t : ℚ} {p : Pos} {s : Nat} (hp : place p) (hpl : place (c.stop s).position) (hq : ∀ q ∈ (c.stop s).start, IsInt q)
    (ht : IsInt t) (htH : |t| ≤ H / 4) (hst : |(Jinete.serve E t p (visitOf c s)).start| ≤ H / 4) :
    (K.serve E c t p s).arr = (Jinete.serve E t p (visitOf c s)).arr ∧
    (K.serve E c t p s).start = (Jinete.serve E t p (visitOf c s)).start ∧
    (K.serve E c t p s).dep = (Jinete.serve E t p (visitOf c s)).dep := by
  have h1 := hW.one
  have hi := hW.whole.serve hW.ends ht hp (v := visitOf c s) hpl hq
  have ha : (K.serve E c t p s).arr = (Jinete.serve E t p (visitOf c s)).arr := by
    have f := hW.far _ _ hp hpl
    show K.round (t + K.dist p (c.stop s).position) = t + E.metric p (c.stop s).position
    rw [hW.dist _ _ hp hpl]
    refine hW.keep _ (ht.add (hW.whole.metric _ _ hp hpl)) ?_
    rw [abs_le] at *
    constructor <;> linarith
  have hs : (K.serve E c t p s).start = (Jinete.serve E t p (visitOf c s)).start := by
    show max (max ((c.stop s).start.getD (K.serve E c t p s).arr) (K.stopEarliest E c s)) (K.serve E c t p s).arr = _
    rw [ha, hW.stopEarliest]
    rfl
  refine ⟨ha, hs, ?_⟩
  have e1 : (K.serve E c t p s).dep = K.round ((K.serve E c t p s).start + stopLoadTime E c s) := rfl
  have e2 : (Jinete.serve E t p (visitOf c s)).dep = (Jinete.serve E t p (visitOf c s)).start + stopLoadTime E c s := by
    rw [stopLoadTime_eq]; rfl
  have hl := hW.close.loadTime (c := c) s
  rw [e1, hs, ← e2]
  refine hW.keep _ hi.2.2 ?_
  rw [e2]
  have := abs_add_le (Jinete.serve E t p (visitOf c s)).start (stopLoadTime E c s)
  linarith

theorem Whole.tmRev {s : Nat} {anc : List Nat} (hpl : ∀ x ∈ s :: anc, place (c.stop x).position)
    (hq : ∀ x ∈ s :: anc, ∀ q ∈ (c.stop x).start, IsInt q)
    (hb : ∀ x anc', (x :: anc') <:+ (s :: anc) → |(Jinete.tmRev E c x anc').start| ≤ H / 4 ∧ |(Jinete.tmRev E c x anc').dep| ≤ H / 4) :
    ((K.tmRev E c s anc).start = (Jinete.tmRev E c s anc).start ∧ (K.tmRev E c s anc).dep = (Jinete.tmRev E c s anc).dep) ∧
    IsInt (Jinete.tmRev E c s anc).start ∧ IsInt (Jinete.tmRev E c s anc).dep := by
  have h1 := hW.one
  induction anc generalizing s with
  | nil =>
    have hv := (hW.toSmall.start (c.stop s).vehicle).earliest
    have iv := (hW.whole.start (c.stop s).vehicle).earliest
    have hi := hW.whole.serve hW.ends iv (hW.depots (c.stop s).vehicle) (v := visitOf c s) (hpl s (by simp)) (hq s (by simp))
    exact ⟨(hW.serve (hW.depots _) (hpl s (by simp)) (hq s (by simp)) iv (by linarith) (hb s [] (List.suffix_refl _)).1).2, hi.2⟩
  | cons p anc ih =>
    obtain ⟨⟨_, e⟩, _, i⟩ := ih (s := p) (fun x hx => hpl x (List.mem_cons_of_mem _ hx)) (fun x hx => hq x (List.mem_cons_of_mem _ hx))
      fun x anc' hx => hb x anc' (hx.trans (List.suffix_cons _ _))
    have hp := hb p anc (List.suffix_cons _ _)
    have hi := hW.whole.serve hW.ends i (hpl p (by simp)) (v := visitOf c s) (hpl s (by simp)) (hq s (by simp))
    have := hW.serve (c := c) (s := s) (hpl p (by simp)) (hpl s (by simp)) (hq s (by simp)) i hp.2 (hb s (p :: anc) (List.suffix_refl _)).1
    refine ⟨?_, hi.2⟩
    rw [Reckoning.tmRev, e]
    exact this.2

/-- Times of a stop of a route, computed and exact. -/
theorem Whole.at (hE : EnvOK E) (hw : WellFormed c r) (hd : ∀ y ∈ (routeTimetable E c r).getLast?, y.dep ≤ H / 4)
    (hpl : ∀ s ∈ (c.route r).stops, place (c.stop s).position) (hq : ∀ s ∈ (c.route r).stops, ∀ q ∈ (c.stop s).start, IsInt q)
    {s : Nat} (hs : s ∈ (c.route r).stops) :
    ((K.tmAt E c s).start = (Jinete.tmAt E c s).start ∧ (K.tmAt E c s).dep = (Jinete.tmAt E c s).dep) ∧
    (IsInt (Jinete.tmAt E c s).start ∧ IsInt (Jinete.tmAt E c s).dep) ∧
    |(Jinete.tmAt E c s).start| ≤ H / 4 ∧ |(Jinete.tmAt E c s).dep| ≤ H / 4 := by
  obtain ⟨pre, suf, e⟩ := List.append_of_mem hs
  have mem : ∀ x ∈ s :: pre.reverse, x ∈ (c.route r).stops := by
    intro x hx
    rw [e]; simp only [List.mem_cons, List.mem_reverse, List.mem_append] at hx ⊢; tauto
  have h := hW.tmRev (c := c) (s := s) (anc := pre.reverse) (fun x hx => hpl x (mem x hx)) (fun x hx => hq x (mem x hx)) (by
    rintro x anc' ⟨t, ht⟩
    have e2 : pre ++ [s] = (anc'.reverse ++ [x]) ++ t.reverse := by
      have := congrArg List.reverse ht
      simpa using this.symm
    have e3 : (c.route r).stops = anc'.reverse ++ x :: (t.reverse ++ suf) := by
      have : (c.route r).stops = (pre ++ [s]) ++ suf := by simp [e]
      rw [this, e2]; simp
    have := hW.close.range hE hw hd (x := x) (by rw [e3]; simp)
    rw [hw.tmAt_eq e3] at this
    simpa using this)
  rw [← tmAt_eq hw.toChained e, ← hw.tmAt_eq e] at h
  exact ⟨h.1, h.2, hW.close.range hE hw hd hs⟩

end

/-- Whole numbers that are not negative are added up exactly. -/
theorem addUp_exact (keep : ∀ q, IsInt q → |q| < 2 ^ 53 → K.round q = q) {f : Nat → Except Err ℚ} {g : Nat → ℚ} {l : List Nat}
    (hf : ∀ x ∈ l, f x = .ok (g x)) (hg : ∀ x ∈ l, IsInt (g x) ∧ 0 ≤ g x) (hb : (l.map g).sum < 2 ^ 53) : K.addUp f l = .ok (l.map g).sum := by
  have main : ∀ (l : List Nat) (z : ℚ), IsInt z → 0 ≤ z → (∀ x ∈ l, f x = .ok (g x)) → (∀ x ∈ l, IsInt (g x) ∧ 0 ≤ g x) →
      z + (l.map g).sum < 2 ^ 53 → l.foldlM (fun s x => do
        let v ← f x
        .ok (K.round (s + v))) z = (.ok (z + (l.map g).sum) : Except Err ℚ) := by
    intro l
    induction l with
    | nil => intro z _ _ _ _ _; simp [pure, Except.pure]
    | cons x l ih =>
      intro z hz z0 hf hg hb
      obtain ⟨hx, x0⟩ := hg x (by simp)
      have hs : 0 ≤ (l.map g).sum := List.sum_nonneg fun y hy => by
        obtain ⟨w, hw, rfl⟩ := List.mem_map.1 hy
        exact (hg w (by simp [hw])).2
      rw [List.map_cons, List.sum_cons] at hb ⊢
      rw [List.foldlM_cons, hf x (by simp)]
      have e : K.round (z + g x) = z + g x := keep _ (hz.add hx) (by rw [abs_of_nonneg (by linarith)]; linarith)
      simp only [bind, Except.bind, e]
      have := ih (z + g x) (hz.add hx) (by linarith) (fun y hy => hf y (by simp [hy])) (fun y hy => hg y (by simp [hy])) (by linarith)
      simp only [bind, Except.bind] at this
      rw [this]
      congr 1
      ring
  have := main l 0 IsInt.zero le_rfl hf hg (by rw [zero_add]; exact hb)
  rw [zero_add] at this
  exact this

end Reckoning

end Jinete
