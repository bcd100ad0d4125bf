import Verif.Proofs.TwoOpt
import Verif.Proofs.Ranking

/-!
# The frame around local search strategies: deep copy, checks, replacing routes
-/

set_option autoImplicit false

namespace Jinete

variable {E : Env} {md : Mode}

theorem checkRoute_run (hE : EnvOK E) {R : Nat → Prop} {h : Heap} (inv : Inv E md R h) {r : Nat} (hr : R r) :
    ∃ h', checkRoute E r h = (.ok (), h') ∧ GrowsV E h h' := by
  have hw := inv.ok.wf r hr
  obtain ⟨h', e, g⟩ := timesCheck_reads hE hw.toChained [] _ rfl h rfl (inv.ok.agree r hr)
  refine ⟨h', ?_, g.toV⟩
  unfold checkRoute
  simp only [Py.read_bind]
  have e1 : Py.assert (linkedCheck h.core (h.core.route r).stops) h = (.ok (), h) := by
    rw [linkedCheck_of_linked hw.linked]; rfl
  rw [Py.bind_ok e1, Py.bind_ok e]
  rfl

theorem checkRoutes_run (hE : EnvOK E) {R : Nat → Prop} : ∀ {l : List Nat} {h : Heap}, Inv E md R h → (∀ r ∈ l, R r) →
    ∃ h', Py.forEach l (checkRoute E) h = (.ok (), h') ∧ GrowsV E h h' := by
  intro l
  induction l with
  | nil => intro h _ _; exact ⟨h, rfl, GrowsV.refl h⟩
  | cons r l ih =>
    intro h inv hl
    obtain ⟨h1, e1, g1⟩ := checkRoute_run hE inv (hl r (by simp))
    obtain ⟨h2, e2, g2⟩ := ih (inv.growsV g1) fun q hq => hl q (by simp [hq])
    refine ⟨h2, ?_, g1.trans g2⟩
    show (checkRoute E r >>= fun _ => Py.forEach l (checkRoute E)) h = _
    rw [Py.bind_ok e1, e2]

/-- The family of the routes and their copies. -/
def WithCopies (R : Nat → Prop) (n : Nat) : Nat → Prop := fun q => R q ∨ Copies R n q

/-- The step may be any of a family `P` that do the same on the copies. -/
theorem improveWith_run (hE : EnvOK E) {R : Nat → Prop} {h : Heap} (inv : Inv E md R h) {order : List Nat → List Nat}
    (ho : ∀ l, (order l).Perm l) (P : (List Nat → M (List Nat)) → Prop) {rs : List Nat} (hrs : ∀ r ∈ rs, R r)
    {Q : (Nat → Prop) → List Nat → Core → Prop}
    (hstep : ∀ h1, h1.core = h.double.core → Inv E md (WithCopies R h.core.nRoute) h1 →
      ∃ l h2 R2, (∀ step, P step → step (order (rs.map (· + h.core.nRoute))) h1 = (.ok l, h2)) ∧ Inv E md R2 h2 ∧ (∀ q ∈ l, R2 q) ∧
        Q R2 l h2.core) :
    ∃ l h' R2, (∀ step, P step → improveWith E order step rs h = (.ok l, h')) ∧ Inv E md R2 h' ∧ (∀ q ∈ l, R2 q) ∧ Q R2 l h'.core := by
  have inv1 : Inv E md (WithCopies R h.core.nRoute) h.double := double_inv inv
  obtain ⟨h1, e1, g1⟩ := checkRoutes_run (l := order (rs.map (· + h.core.nRoute))) hE inv1 (by
    intro r hr
    obtain ⟨q, hq, rfl⟩ := List.mem_map.1 ((ho _).mem_iff.1 hr)
    exact .inr ⟨q, hrs q hq, rfl⟩)
  obtain ⟨l, h2, R2, e2, i2, hl, q2⟩ := hstep h1 g1.core (inv1.growsV g1)
  obtain ⟨h3, e3, g3⟩ := checkRoutes_run hE i2 hl
  have e0 : deepcopyRoutes rs h = (.ok (rs.map (· + h.core.nRoute)), h.double) := rfl
  refine ⟨l, h3, R2, fun step hs => ?_, i2.growsV g3, hl, by rw [g3.core]; exact q2⟩
  unfold improveWith
  rw [Py.bind_ok e0, Py.bind_ok e1, Py.bind_ok (e2 step hs), Py.bind_ok e3]
  rfl

/-! ## `_update_routes` -/

/-- The vehicles of the routes. -/
def vehiclesOf (c : Core) (l : List Nat) : List Nat := l.map fun r => (c.route r).vehicle

theorem updateRoutes_run (routes over : List Nat) (h : Heap) :
    ∃ l, updateRoutes routes over h = (.ok l, h) ∧
      l = (routes.filter fun r => decide ((h.core.route r).vehicle ∉ vehiclesOf h.core over)) ++ over := by
  unfold updateRoutes
  simp only [Py.read_bind]
  by_cases h0 : over = []
  · rw [if_pos h0]
    refine ⟨_, rfl, ?_⟩
    subst h0
    simp [vehiclesOf]
  · rw [if_neg h0]
    exact ⟨_, rfl, rfl⟩

/-! ## The whole two-opt step -/

/-- A route of the result of two-opt: an unchanged one of `rs`, or a better reordering of one. -/
inductive FromTwoOpt (E : Env) (k : Objective) (md : Mode) (c : Core) (rs : List Nat) (c' : Core) (q : Nat) : Prop
  | kept : q ∈ rs → FromTwoOpt E k md c rs c' q
  | better {r : Nat} : r ∈ rs →
      Reordered E k md c r (routeValue E (E.vehicle (c.route r).vehicle) (itinerary c r) k) c' q → FromTwoOpt E k md c rs c' q

theorem twoOpt_run {k : Objective} (hE : EnvOK E) {rs : List Nat} {R : Nat → Prop} {h : Heap} (inv : Inv E md R h)
    (hrs : ∀ r ∈ rs, R r) (hn : (vehiclesOf h.core rs).Nodup) :
    ∃ l h', twoOpt E k rs h = (.ok l, h') ∧ Inv E md (Upto R h h') h' ∧ SameCore R h.core h'.core ∧ l.Nodup ∧
      (∀ q ∈ l, Upto R h h' q) ∧ (∀ q ∈ l, q ∈ rs ∨ h.core.nRoute ≤ q) ∧ (∀ q ∈ l, FromTwoOpt E k md h.core rs h'.core q) ∧
      (∀ r ∈ rs, ∃ q ∈ l, (h'.core.route q).vehicle = (h.core.route r).vehicle) := by
  obtain ⟨news, h', e, i, s, nd, hq⟩ := twoOptRoutes_run (k := k) hE rs [] inv hrs
  rw [List.nil_append] at e
  obtain ⟨l, el, hl⟩ := updateRoutes_run rs news h'
  have hrn : rs.Nodup := List.Nodup.of_map _ hn
  refine ⟨l, h', ?_, i, s, ?_, ?_, ?_, ?_, ?_⟩
  · unfold twoOpt
    rw [Py.bind_ok e, el]
  · rw [hl]
    refine List.nodup_append.2 ⟨hrn.filter _, nd, ?_⟩
    rintro a ha b hb rfl
    have h1 := (inv.ok.wf a (hrs a (List.mem_filter.1 ha).1)).exists_
    have h2 := (hq a hb).1
    omega
  · intro q h0
    rw [hl] at h0
    rcases List.mem_append.1 h0 with h0 | h0
    · exact .inl (hrs q (List.mem_filter.1 h0).1)
    · exact .inr ⟨(hq q h0).1, (hq q h0).2.1⟩
  · intro q h0
    rw [hl] at h0
    rcases List.mem_append.1 h0 with h0 | h0
    · exact .inl (List.mem_filter.1 h0).1
    · exact .inr (hq q h0).1
  · intro q h0
    rw [hl] at h0
    rcases List.mem_append.1 h0 with h0 | h0
    · exact .kept (List.mem_filter.1 h0).1
    · obtain ⟨_, _, r, hr, hx⟩ := hq q h0
      exact .better hr hx
  · intro r hr
    by_cases h0 : (h'.core.route r).vehicle ∈ vehiclesOf h'.core news
    · obtain ⟨q, h1, h2⟩ := List.mem_map.1 h0
      refine ⟨q, by rw [hl]; simp [h1], ?_⟩
      rw [h2, s.route r (hrs r hr)]
    · exact ⟨r, by rw [hl]; exact List.mem_append_left _ (List.mem_filter.2 ⟨hr, by simpa using h0⟩), by rw [s.route r (hrs r hr)]⟩

end Jinete
