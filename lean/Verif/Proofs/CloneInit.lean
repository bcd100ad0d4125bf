import Verif.Model.Cloner
import Verif.Proofs.Append

/-!
# `RouteCloner._initialize`
-/

set_option autoImplicit false

namespace Jinete

variable {E : Env}

/-- Planned trips dropped at the stops `l`. -/
def dropsOf (c : Core) (l : List Nat) : List Nat := l.flatMap fun s => (c.stop s).deliveries

/-- Planned trips picked up at the stops `l`. -/
def picksOf (c : Core) (l : List Nat) : List Nat := l.flatMap fun s => (c.stop s).pickups

@[simp] theorem dropsOf_cons (c : Core) (s : Nat) (l : List Nat) :
    dropsOf c (s :: l) = (c.stop s).deliveries ++ dropsOf c l := rfl
@[simp] theorem picksOf_cons (c : Core) (s : Nat) (l : List Nat) :
    picksOf c (s :: l) = (c.stop s).pickups ++ picksOf c l := rfl
@[simp] theorem dropsOf_nil (c : Core) : dropsOf c [] = [] := rfl
@[simp] theorem picksOf_nil (c : Core) : picksOf c [] = [] := rfl

theorem dropsOf_append (c : Core) (a b : List Nat) : dropsOf c (a ++ b) = dropsOf c a ++ dropsOf c b := by
  simp [dropsOf]
theorem picksOf_append (c : Core) (a b : List Nat) : picksOf c (a ++ b) = picksOf c a ++ picksOf c b := by
  simp [picksOf]

/-- `h'` is `h` with additional planned trips only. -/
structure PtExt (h h' : Heap) : Prop where
  stop : h'.core.stop = h.core.stop
  nStop : h'.core.nStop = h.core.nStop
  route : h'.core.route = h.core.route
  nRoute : h'.core.nRoute = h.core.nRoute
  nPt : h.core.nPt ≤ h'.core.nPt
  pt : ∀ p, p < h.core.nPt → h'.core.pt p = h.core.pt p
  pfeas : ∀ p, p < h.core.nPt → h'.pfeas p = h.pfeas p
  arr : h'.arr = h.arr
  dep : h'.dep = h.dep
  cap : h'.cap = h.cap
  sfeas : h'.sfeas = h.sfeas
  rfeas : h'.rfeas = h.rfeas

theorem PtExt.refl (h : Heap) : PtExt h h :=
  ⟨rfl, rfl, rfl, rfl, le_refl _, fun _ _ => rfl, fun _ _ => rfl, rfl, rfl, rfl, rfl, rfl⟩

theorem PtExt.trans {h1 h2 h3 : Heap} (a : PtExt h1 h2) (b : PtExt h2 h3) : PtExt h1 h3 :=
  ⟨b.stop.trans a.stop, b.nStop.trans a.nStop, b.route.trans a.route, b.nRoute.trans a.nRoute, a.nPt.trans b.nPt,
    fun p hp => (b.pt p (lt_of_lt_of_le hp a.nPt)).trans (a.pt p hp),
    fun p hp => (b.pfeas p (lt_of_lt_of_le hp a.nPt)).trans (a.pfeas p hp),
    b.arr.trans a.arr, b.dep.trans a.dep, b.cap.trans a.cap, b.sfeas.trans a.sfeas, b.rfeas.trans a.rfeas⟩

/-- The mapper maps planned trips of `h0` to distinct fresh unattached copies of `h`. -/
structure MapOK (h0 h : Heap) (m : Mapper) : Prop where
  keys : (m.map Prod.fst).Nodup
  vals : (m.map Prod.snd).Nodup
  old : ∀ x ∈ m, x.1 < h0.core.nPt
  fresh : ∀ x ∈ m, h0.core.nPt ≤ x.2 ∧ x.2 < h.core.nPt ∧ h.pfeas x.2 = none ∧
    h.core.pt x.2 = ⟨(h0.core.pt x.1).vehicle, (h0.core.pt x.1).trip, none, none⟩
  cover : ∀ q, h0.core.nPt ≤ q → q < h.core.nPt → ∃ x ∈ m, x.2 = q

theorem newPlannedTrip_none (h : Heap) (v t : Nat) :
    newPlannedTrip E v t none none h = (.ok h.core.nPt, h.allocPt ⟨v, t, none, none⟩) := rfl

theorem clonerMapStop_run {h0 : Heap} (l : List Nat) :
    ∀ (h : Heap) (m : Mapper), PtExt h0 h → MapOK h0 h m → (∀ p ∈ l, p < h0.core.nPt) →
      (l ++ m.map Prod.fst).Nodup →
      ∃ m' h', clonerMapStop E l m h = (.ok m', h') ∧ PtExt h0 h' ∧ MapOK h0 h' m' ∧
        (∀ p, p ∈ m'.map Prod.fst ↔ p ∈ l ∨ p ∈ m.map Prod.fst) := by
  induction l with
  | nil => intro h m hx hm _ _; exact ⟨m, h, rfl, hx, hm, by simp⟩
  | cons p l ih =>
    intro h m hx hm hl hn
    rw [clonerMapStop]
    simp only [Py.read_bind]
    rw [Py.bind_ok (newPlannedTrip_none h _ _)]
    have hp : p < h0.core.nPt := hl p (by simp)
    have hpe := hx.pt p hp
    have hx' : PtExt h0 (h.allocPt ⟨(h.core.pt p).vehicle, (h.core.pt p).trip, none, none⟩) := by
      refine hx.trans ⟨rfl, rfl, rfl, rfl, by simp [Heap.allocPt], ?_, ?_, rfl, rfl, rfl, rfl, rfl⟩
      · intro q hq; simp [Heap.allocPt, Function.update, Nat.ne_of_lt hq]
      · intro q hq; simp [Heap.allocPt, Function.update, Nat.ne_of_lt hq]
    have hm' : MapOK h0 (h.allocPt ⟨(h.core.pt p).vehicle, (h.core.pt p).trip, none, none⟩) ((p, h.core.nPt) :: m) := by
      constructor
      · have h1 := hn
        simp only [List.cons_append, List.nodup_cons, List.mem_append, not_or] at h1
        simp only [List.map_cons, List.nodup_cons]
        exact ⟨h1.1.2, hm.keys⟩
      · simp only [List.map_cons, List.nodup_cons]
        refine ⟨?_, hm.vals⟩
        intro hmem
        obtain ⟨x, hxm, hxe⟩ := List.mem_map.1 hmem
        have := (hm.fresh x hxm).2.1
        omega
      · intro x hxm
        rcases List.mem_cons.1 hxm with rfl | hxm
        · exact hp
        · exact hm.old x hxm
      · intro x hxm
        rcases List.mem_cons.1 hxm with rfl | hxm
        · refine ⟨hx.nPt, by simp [Heap.allocPt], by simp [Heap.allocPt], ?_⟩
          simp [Heap.allocPt, hpe]
        · obtain ⟨a1, a2, a3, a4⟩ := hm.fresh x hxm
          refine ⟨a1, by simp [Heap.allocPt]; omega, ?_, ?_⟩
          · simp [Heap.allocPt, Function.update, Nat.ne_of_lt a2, a3]
          · simp [Heap.allocPt, Function.update, Nat.ne_of_lt a2, a4]
      · intro q hq1 hq2
        by_cases e : q = h.core.nPt
        · exact ⟨(p, h.core.nPt), by simp, e.symm⟩
        · obtain ⟨x, hxm, hxe⟩ := hm.cover q hq1 (by simp only [Heap.allocPt] at hq2; omega)
          exact ⟨x, by simp [hxm], hxe⟩
    have hn' : (l ++ ((p, h.core.nPt) :: m).map Prod.fst).Nodup := by
      have : (l ++ p :: m.map Prod.fst).Perm (p :: (l ++ m.map Prod.fst)) := List.perm_middle
      simpa using this.nodup_iff.2 hn
    obtain ⟨m2, h2, e2, x2, k2, i2⟩ := ih _ _ hx' hm' (fun q hq => hl q (by simp [hq])) hn'
    refine ⟨m2, h2, e2, x2, k2, ?_⟩
    intro q
    rw [i2]
    simp only [List.map_cons, List.mem_cons]
    tauto

/-- Facts about a suffix of a well formed route. -/
theorem WellFormed.picks_in_suffix {c : Core} {r : Nat} (hw : WellFormed c r) {pre suf : List Nat}
    (e : (c.route r).stops = pre ++ suf) : ∀ p ∈ picksOf c suf, p ∈ dropsOf c suf := by
  intro p hp
  obtain ⟨s, hs, hps⟩ := List.mem_flatMap.1 hp
  obtain ⟨a, b, eab⟩ := List.append_of_mem hs
  obtain ⟨_, _, d, hd, _, hpd⟩ := hw.pick (pre ++ a) s b (by rw [e, eab]; simp) p hps
  exact List.mem_flatMap.2 ⟨d, by rw [eab]; simp [hd], hpd⟩

theorem WellFormed.drops_nodup {c : Core} {r : Nat} (hw : WellFormed c r) {pre suf : List Nat}
    (e : (c.route r).stops = pre ++ suf) : (dropsOf c suf).Nodup := by
  have := hw.deliveries_nodup
  rw [e, List.flatMap_append] at this
  exact this.of_append_right

theorem WellFormed.picks_nodup' {c : Core} {r : Nat} (hw : WellFormed c r) {pre suf : List Nat}
    (e : (c.route r).stops = pre ++ suf) : (picksOf c suf).Nodup := by
  have := hw.pickups_nodup
  rw [e, List.flatMap_append] at this
  exact this.of_append_right

/-- A planned trip dropped at `s` is not picked up after `s`. -/
theorem WellFormed.drop_not_later {c : Core} {r : Nat} (hw : WellFormed c r) {pre suf : List Nat} {s : Nat}
    (e : (c.route r).stops = pre ++ s :: suf) : ∀ p ∈ (c.stop s).deliveries, p ∉ picksOf c suf := by
  intro p hp hq
  obtain ⟨_, _, u, hu, hpu, _⟩ := hw.drop pre s suf e p hp
  obtain ⟨x, hx, hpx⟩ := List.mem_flatMap.1 hq
  have := (hw.pick' (s := x) (by rw [e]; simp [hx]) hpx).2.1
  rw [hpu] at this
  cases this
  have hn := hw.nodup
  rw [e] at hn
  exact (List.disjoint_of_nodup_append hn) hu (by simp [hx])

/-- Invariant of the `while` loop of `_initialize` when the stops `suf` have been processed. -/
structure LoopInv (h0 h : Heap) (suf : List Nat) (m : Mapper) (mis : List Nat) : Prop where
  ext : PtExt h0 h
  map : MapOK h0 h m
  keys : ∀ p, p ∈ m.map Prod.fst ↔ p ∈ dropsOf h0.core suf
  mis : ∀ p, p ∈ mis ↔ p ∈ dropsOf h0.core suf ∧ p ∉ picksOf h0.core suf

theorem clonerLoop_run {h0 : Heap} {r : Nat} (hw : WellFormed h0.core r) (desired : Nat) :
    ∀ (idx : Nat) (pre suf : List Nat) (h : Heap) (m : Mapper) (mis : List Nat),
      (h0.core.route r).stops = pre ++ suf → pre.length = idx → LoopInv h0 h suf m mis →
      ∃ idx' m' h' mis' pre' suf', clonerLoop E (h0.core.route r).stops desired idx m mis h = (.ok (idx', m', mis'), h') ∧
        (h0.core.route r).stops = pre' ++ suf' ∧ pre'.length = idx' ∧ LoopInv h0 h' suf' m' mis' ∧ mis' = [] ∧
        (idx' = 0 ∨ idx' < desired) ∧ idx' ≤ idx := by
  intro idx
  induction idx with
  | zero =>
    intro pre suf h m mis e hl hi
    have hp : pre = [] := List.length_eq_zero_iff.1 hl
    subst hp
    refine ⟨0, m, h, mis, [], suf, rfl, e, rfl, hi, ?_, .inl rfl, le_refl _⟩
    rw [List.eq_nil_iff_forall_not_mem]
    intro p hp
    obtain ⟨h1, h2⟩ := (hi.mis p).1 hp
    have := hw.deliveries_sub_pickups p (by rw [e]; exact h1)
    rw [e] at this
    exact h2 this
  | succ idx ih =>
    intro pre suf h m mis e hl hi
    rw [clonerLoop]
    by_cases hcond : (!mis.isEmpty || !decide (idx + 1 < desired)) = true
    · rw [if_pos hcond]
      have hpne : pre ≠ [] := by rintro rfl; simp at hl
      obtain ⟨pre', s, rfl⟩ : ∃ p s, pre = p ++ [s] := by
        rcases List.eq_nil_or_concat pre with h0 | ⟨q, b, h0⟩
        · exact absurd h0 hpne
        · exact ⟨q, b, by simpa using h0⟩
      have hl' : pre'.length = idx := by simpa using hl
      have e' : (h0.core.route r).stops = pre' ++ s :: suf := by rw [e]; simp
      have hix : Py.index (h0.core.route r).stops idx h = (.ok s, h) := by
        simp [Py.index, e', ← hl']
      rw [Py.bind_ok hix]
      simp only [Py.read_bind]
      rw [hi.ext.stop]
      have hdn := hw.drops_nodup (pre := pre') (suf := s :: suf) e'
      rw [dropsOf_cons] at hdn
      have hnd : ((h0.core.stop s).deliveries ++ m.map Prod.fst).Nodup := by
        rw [List.nodup_append] at hdn ⊢
        refine ⟨hdn.1, hi.map.keys, ?_⟩
        intro a ha b hb
        exact hdn.2.2 a ha b ((hi.keys b).1 hb)
      obtain ⟨m1, h1, e1, x1, k1, i1⟩ := clonerMapStop_run (E := E) (h0.core.stop s).deliveries h m hi.ext hi.map
        (fun p hp => (hw.drop' (s := s) (by rw [e']; simp) hp).1) hnd
      rw [Py.bind_ok e1]
      have hi' : LoopInv h0 h1 (s :: suf) m1 (mismatchStep mis (h0.core.stop s).deliveries (h0.core.stop s).pickups) := by
        refine ⟨x1, k1, ?_, ?_⟩
        · intro p
          rw [i1, hi.keys, dropsOf_cons, List.mem_append]
        · intro p
          simp only [mismatchStep, List.mem_filter, List.mem_union_iff, hi.mis, dropsOf_cons, picksOf_cons, List.mem_append,
            Bool.not_eq_true', List.contains_eq_mem, decide_eq_false_iff_not, not_or]
          constructor
          · rintro ⟨⟨h1, h2⟩ | h1, h3⟩
            · exact ⟨.inr h1, h3, h2⟩
            · exact ⟨.inl h1, h3, hw.drop_not_later e' p h1⟩
          · rintro ⟨h1 | h1, h2, h3⟩
            · exact ⟨.inr h1, h2⟩
            · exact ⟨.inl ⟨h1, h3⟩, h2⟩
      obtain ⟨a1, a2, a3, a4, a5, a6, b1, b2, b3, b4, b5, b6, b7⟩ := ih pre' (s :: suf) h1 m1 _ e' hl' hi'
      exact ⟨a1, a2, a3, a4, a5, a6, b1, b2, b3, b4, b5, b6, by omega⟩
    · rw [if_neg hcond]
      simp only [Bool.or_eq_true, Bool.not_eq_true', List.isEmpty_eq_false_iff, decide_eq_false_iff_not, not_or,
        not_not, ne_eq] at hcond
      exact ⟨idx + 1, m, h, mis, pre, suf, rfl, e, hl, hi, hcond.1, .inr hcond.2, le_refl _⟩

/-- `_initialize` on a well formed route: the threshold cuts the route so that no planned trip is split;
the mapper covers exactly the planned trips after the cut. -/
theorem clonerInit_run {h0 : Heap} {r : Nat} (hw : WellFormed h0.core r) (desired : Nat) :
    ∃ idx m h' pre suf, clonerInit E r desired h0 = (.ok (idx, m), h') ∧
      (h0.core.route r).stops = pre ++ suf ∧ pre.length = idx ∧ PtExt h0 h' ∧ MapOK h0 h' m ∧
      (∀ p, p ∈ m.map Prod.fst ↔ p ∈ dropsOf h0.core suf) ∧
      (∀ p, p ∈ dropsOf h0.core suf ↔ p ∈ picksOf h0.core suf) ∧
      (idx = 0 ∨ 2 ≤ idx) ∧ (idx = 0 ∨ idx < desired) := by
  have hinit : LoopInv h0 h0 [] [] [] :=
    ⟨PtExt.refl h0, ⟨by simp, by simp, by simp, by simp, fun q h1 h2 => by omega⟩, by simp, by simp⟩
  obtain ⟨idx, m, h', mis, pre, suf, e1, e2, e3, hi, e4, e5, _⟩ := clonerLoop_run (E := E) hw desired
    (h0.core.route r).stops.length (h0.core.route r).stops [] h0 [] [] (by simp) rfl hinit
  have hloop : clonerInit E r desired h0 = (.ok (if idx = 1 then 0 else idx, m), h') := by
    unfold clonerInit
    have h1 : routeStops r h0 = (.ok (h0.core.route r).stops, h0) := by simp [routeStops]
    rw [Py.bind_ok h1, Py.bind_ok e1, e4]
    rfl
  have hiff : ∀ p, p ∈ dropsOf h0.core suf ↔ p ∈ picksOf h0.core suf := by
    intro p
    constructor
    · intro hp
      by_contra hq
      have := (hi.mis p).2 ⟨hp, hq⟩
      rw [e4] at this
      simp at this
    · exact hw.picks_in_suffix e2 p
  by_cases h1 : idx = 1
  · rw [if_pos h1] at hloop
    obtain ⟨s0, hs0⟩ : ∃ s, pre = [s] := List.length_eq_one_iff.1 (by rw [e3, h1])
    have hdep := hw.depot s0 (by rw [e2, hs0]; simp)
    refine ⟨0, m, h', [], (h0.core.route r).stops, hloop, rfl, rfl, hi.ext, hi.map, ?_, ?_, .inl rfl, .inl rfl⟩
    · intro p
      rw [hi.keys, e2, hs0]
      simp [hdep.2]
    · intro p
      rw [e2, hs0]
      simp only [List.cons_append, List.nil_append, dropsOf_cons, picksOf_cons, hdep.1, hdep.2]
      exact hiff p
  · rw [if_neg h1] at hloop
    exact ⟨idx, m, h', pre, suf, hloop, e2, e3, hi.ext, hi.map, hi.keys, hiff, by omega, e5⟩

end Jinete
