import Verif.Proofs.OneShift
import Verif.Props.Asking

/-!
# One-shift with stale times: departures never lie after later arrivals, so no assertion on times fails
-/

set_option autoImplicit false

namespace Jinete

variable {E : Env}

/-! ## The times reported along a route -/

/-- The times reported by the stops `l`, given those before the first of them, latest first. -/
def shownRow (E : Env) (h : Heap) : List Nat → List Nat → List Tm
  | _, [] => []
  | anc, s :: l => shown E h s anc :: shownRow E h (s :: anc) l

/-- One stop is left before another one is reached and left. -/
def LeftBefore (x y : Tm) : Prop := x.dep ≤ y.arr ∧ x.dep ≤ y.dep

theorem shownRow_append {h : Heap} (l1 : List Nat) : ∀ (anc l2 : List Nat),
    shownRow E h anc (l1 ++ l2) = shownRow E h anc l1 ++ shownRow E h (l1.reverse ++ anc) l2 := by
  induction l1 with
  | nil => intro anc l2; rfl
  | cons s l ih => intro anc l2; simp [shownRow, ih]

theorem shownRow_congr {h h' : Heap} (l : List Nat) : ∀ anc : List Nat,
    (∀ pre s suf, l = pre ++ s :: suf → shown E h' s (pre.reverse ++ anc) = shown E h s (pre.reverse ++ anc)) →
    shownRow E h' anc l = shownRow E h anc l := by
  induction l with
  | nil => intro anc _; rfl
  | cons s l ih =>
    intro anc hl
    simp only [shownRow]
    rw [ih (s :: anc) fun pre x suf e => by have := hl (s :: pre) x suf (by rw [e]; rfl); simpa using this]
    have := hl [] s l rfl
    simp only [List.reverse_nil, List.nil_append] at this
    rw [this]

theorem shownRow_mem {h : Heap} (pre suf : List Nat) (s : Nat) (anc : List Nat) :
    shown E h s (pre.reverse ++ anc) ∈ shownRow E h anc (pre ++ s :: suf) := by
  rw [shownRow_append]
  exact List.mem_append.2 (Or.inr List.mem_cons_self)

/-- Everything a stop reports depends on its own attributes and memoised times and on those of the stops before it. -/
theorem shown_local {h h' : Heap} (hp : h'.core.pt = h.core.pt) (anc : List Nat) : ∀ s : Nat,
    (∀ x ∈ s :: anc, h'.core.stop x = h.core.stop x ∧ h'.arr x = h.arr x ∧ h'.dep x = h.dep x) →
    shown E h' s anc = shown E h s anc := by
  have step : ∀ (s : Nat) (t : ℚ) (p : Pos), h'.core.stop s = h.core.stop s ∧ h'.arr s = h.arr s ∧ h'.dep s = h.dep s →
      shownStep E h' s t p = shownStep E h s t p := by
    rintro s t p ⟨h1, h2, h3⟩
    have e1 : stopEarliest E h'.core s = stopEarliest E h.core s := by
      rw [stopEarliest_eq, stopEarliest_eq]; unfold visitOf; rw [h1, hp]
    have e2 : stopLoadTime E h'.core s = stopLoadTime E h.core s := by
      rw [stopLoadTime_eq, stopLoadTime_eq]; unfold visitOf; rw [h1, hp]
    simp only [shownStep, h1, h2, h3, e1, e2]
  induction anc with
  | nil =>
    intro s hs
    simp only [shown]
    rw [step s _ _ (hs s (by simp)), (hs s (by simp)).1]
  | cons p l ih =>
    intro s hs
    simp only [shown]
    rw [ih p fun x hx => hs x (List.mem_cons_of_mem _ hx), step s _ _ (hs s (by simp)), (hs p (by simp)).1]

theorem shownStep_arr_le {h : Heap} {s : Nat} {t : ℚ} {p : Pos} : (shownStep E h s t p).arr ≤ (shownStep E h s t p).start :=
  le_max_right _ _

theorem shown_arr_le {h : Heap} {s : Nat} {anc : List Nat} : (shown E h s anc).arr ≤ (shown E h s anc).start := by
  cases anc <;> exact shownStep_arr_le

theorem shownStep_after (hE : EnvOK E) {h : Heap} {s : Nat} {t : ℚ} {p : Pos} {x : ℚ} (ht : x ≤ t) (ha : ∀ v, h.arr s = some v → x ≤ v)
    (hd : ∀ v, h.dep s = some v → x ≤ v) : x ≤ (shownStep E h s t p).arr ∧ x ≤ (shownStep E h s t p).dep := by
  have h1 : x ≤ (shownStep E h s t p).arr := by
    show x ≤ (h.arr s).getD _
    cases e : h.arr s with
    | some v => exact ha v e
    | none =>
      have := hE.metric p (h.core.stop s).position
      show x ≤ t + _
      linarith
  refine ⟨h1, ?_⟩
  show x ≤ (h.dep s).getD _
  cases e : h.dep s with
  | some v => exact hd v e
  | none =>
    have h2 : (shownStep E h s t p).arr ≤ (shownStep E h s t p).start := shownStep_arr_le
    have h3 : 0 ≤ stopLoadTime E h.core s := by rw [stopLoadTime_eq]; exact Visit.loadTime_nonneg hE _
    show x ≤ (shownStep E h s t p).start + stopLoadTime E h.core s
    linarith

/-- One more stop. -/
theorem shownRow_extend (hE : EnvOK E) {h : Heap} {pre : List Nat} {s : Nat} (hp : pre ≠ [])
    (hw : (shownRow E h [] pre).Pairwise LeftBefore)
    (ha : ∀ v, h.arr s = some v → ∀ x ∈ shownRow E h [] pre, x.dep ≤ v)
    (hd : ∀ v, h.dep s = some v → ∀ x ∈ shownRow E h [] pre, x.dep ≤ v) :
    (shownRow E h [] (pre ++ [s])).Pairwise LeftBefore := by
  rw [shownRow_append, List.pairwise_append]
  refine ⟨hw, by simp [shownRow], fun x hx y hy => ?_⟩
  simp only [shownRow, List.mem_singleton, List.append_nil] at hy
  subst hy
  obtain ⟨pre', p, rfl⟩ : ∃ pre' p, pre = pre' ++ [p] := ⟨_, _, (List.dropLast_append_getLast hp).symm⟩
  have hxp : x.dep ≤ (shown E h p pre'.reverse).dep := by
    rw [shownRow_append, List.pairwise_append] at hw
    rw [shownRow_append, List.mem_append] at hx
    rcases hx with hx | hx
    · exact (hw.2.2 x hx _ (by simp [shownRow])).2
    · simp only [shownRow, List.mem_singleton, List.append_nil] at hx
      rw [hx]
  rw [List.reverse_append]
  exact shownStep_after hE hxp (fun v e => ha v e x hx) fun v e => hd v e x hx

/-- Further stops without memoised times. -/
theorem shownRow_fresh (hE : EnvOK E) {h : Heap} (suf : List Nat) : ∀ pre : List Nat, pre ≠ [] → (shownRow E h [] pre).Pairwise LeftBefore →
    (∀ s ∈ suf, h.arr s = none ∧ h.dep s = none) → (shownRow E h [] (pre ++ suf)).Pairwise LeftBefore := by
  induction suf with
  | nil => intro pre _ hw _; simpa using hw
  | cons s suf ih =>
    intro pre hp hw hs
    rw [List.append_cons]
    refine ih (pre ++ [s]) (by simp) (shownRow_extend hE hp hw ?_ ?_) fun x hx => hs x (List.mem_cons_of_mem _ hx)
    · intro v e; rw [(hs s (by simp)).1] at e; cases e
    · intro v e; rw [(hs s (by simp)).2] at e; cases e

theorem shown_coherent {h : Heap} (anc : List Nat) : ∀ s : Nat, Anc h.core s anc → (∀ x ∈ s :: anc, CohAt E h x) →
    shown E h s anc = tmRev E h.core s anc := by
  have step : ∀ (s : Nat) (t : ℚ) (p : Pos), (∀ v, h.arr s = some v → v = (serve E t p (visitOf h.core s)).arr) →
      (∀ v, h.dep s = some v → v = (serve E t p (visitOf h.core s)).dep) → shownStep E h s t p = serve E t p (visitOf h.core s) := by
    intro s t p h1 h2
    have e1 : (h.arr s).getD (t + E.metric p (h.core.stop s).position) = (serve E t p (visitOf h.core s)).arr := by
      cases e : h.arr s with
      | none => rfl
      | some v => exact h1 v e
    have e2 : (h.dep s).getD ((serve E t p (visitOf h.core s)).start + stopLoadTime E h.core s) = (serve E t p (visitOf h.core s)).dep := by
      cases e : h.dep s with
      | none => rw [stopLoadTime_eq]; rfl
      | some v => exact h2 v e
    have e3 : max (max ((h.core.stop s).start.getD (serve E t p (visitOf h.core s)).arr) (stopEarliest E h.core s))
        (serve E t p (visitOf h.core s)).arr = (serve E t p (visitOf h.core s)).start := by
      rw [stopEarliest_eq]; rfl
    simp only [shownStep, e1, e3, e2]
  induction anc with
  | nil =>
    intro s ha hs
    obtain ⟨h1, h2, _⟩ := hs s (by simp) [] ha
    exact step s _ _ h1 h2
  | cons p l ih =>
    intro s ha hs
    obtain ⟨h1, h2, _⟩ := hs s (by simp) (p :: l) ha
    simp only [shown]
    rw [ih p ha.2 fun x hx => hs x (List.mem_cons_of_mem _ hx)]
    exact step s _ _ h1 h2

/-- With up-to-date times each stop is left before the later ones are reached. -/
theorem shownRow_coherent (hE : EnvOK E) {h : Heap} {r : Nat} (hc : Chained h.core r) (ha : ∀ s ∈ (h.core.route r).stops, CohAt E h s) :
    (shownRow E h [] (h.core.route r).stops).Pairwise LeftBefore := by
  have e : shownRow E { h with arr := fun _ => none, dep := fun _ => none } [] (h.core.route r).stops =
      shownRow E h [] (h.core.route r).stops := by
    refine shownRow_congr _ _ fun pre s suf e => ?_
    have hanc := hc.anc e
    have hin : ∀ x ∈ s :: pre.reverse, x ∈ (h.core.route r).stops := by
      intro x hx
      rw [e]
      simp at hx ⊢
      tauto
    rw [List.append_nil, shown_coherent _ s hanc fun x hx => ha x (hin x hx)]
    exact shown_coherent _ s hanc fun x hx anc' _ =>
      ⟨fun v e => by simp at e, fun v e => by simp at e, fun v e => (ha x (hin x hx) anc' ‹_›).2.2 v e⟩
  rw [← e]
  cases (h.core.route r).stops with
  | nil => exact List.Pairwise.nil
  | cons s l => exact shownRow_fresh hE l [s] (by simp) (by simp [shownRow]) fun _ _ => ⟨rfl, rfl⟩

/-! ## Questions about one route return -/

/-- The load of every stop of a route can be computed. -/
def LoadsFine (E : Env) (h : Heap) (r : Nat) : Prop :=
  ∀ pre s suf, (h.core.route r).stops = pre ++ s :: suf → ∃ v, shownLoad E h s pre.reverse = .ok v

/-- The state of a route in which questions return; those that need loads, if `b`. -/
structure Askable (E : Env) (c : Core) (r : Nat) (b : Bool) (h : Heap) : Prop where
  core : h.core = c
  row : (shownRow E h [] (c.route r).stops).Pairwise LeftBefore
  loads : b = true → StopsJudged h r ∨ LoadsFine E h r

/-- What questions about one route leave alone. -/
structure AskedOf (E : Env) (c : Core) (r : Nat) (h h' : Heap) : Prop where
  alike : AlikeTimes E (· ∈ (c.route r).stops) h h'
  judged : ∀ s, h.sfeas s ≠ none → h'.sfeas s ≠ none

section
variable {c : Core} {r : Nat} {b : Bool} {α β : Type}

theorem AskedOf.refl (h : Heap) : AskedOf E c r h h := ⟨AlikeTimes.refl h, fun _ e => e⟩
theorem AskedOf.trans {h h1 h2 : Heap} (a : AskedOf E c r h h1) (b : AskedOf E c r h1 h2) : AskedOf E c r h h2 :=
  ⟨a.alike.trans b.alike, fun s e => b.judged s (a.judged s e)⟩

theorem SameVerdicts.askedOf {h h' : Heap} (a : SameVerdicts E (· ∈ (c.route r).stops) h h') : AskedOf E c r h h' :=
  ⟨a.toAlikeTimes, fun _ e => by rw [a.sfeas]; exact e⟩

theorem Askable.after (hc : Chained c r) {h h' : Heap} (k : Askable E c r b h) (a : AskedOf E c r h h') : Askable E c r b h' := by
  have ec : h'.core = h.core := a.alike.core
  have hin : ∀ pre s suf, (c.route r).stops = pre ++ s :: suf → s ∈ (c.route r).stops := fun pre s suf e => by rw [e]; simp
  refine ⟨ec.trans k.core, ?_, fun hb => ?_⟩
  · rw [shownRow_congr _ _ fun pre s suf e => ?_]
    · exact k.row
    · rw [List.append_nil]
      exact a.alike.times s _ (hin pre s suf e) (by rw [k.core]; exact hc.anc e)
  · rcases k.loads hb with h1 | h1
    · refine .inl fun s hs hv => a.judged s (h1 s ?_ ?_)
      · rw [ec] at hs; exact hs
      · rw [ec] at hv; exact hv
    · refine .inr fun pre s suf e => ?_
      rw [ec] at e
      rw [a.alike.load s _ (by rw [k.core] at e; exact hin pre s suf e) (by have := hc; rw [← k.core] at this; exact this.anc e)]
      exact h1 pre s suf e

/-- In every state in which the route can be asked, `m` returns, and the route can still be asked. -/
def Runs (E : Env) (c : Core) (r : Nat) (b : Bool) (m : M α) : Prop :=
  ∀ h, Askable E c r b h → ∃ a h', m h = (.ok a, h') ∧ AskedOf E c r h h'

namespace Runs

theorem pure (a : α) : Runs E c r b (Pure.pure a : M α) := fun h _ => ⟨a, h, rfl, AskedOf.refl h⟩

theorem bind (hc : Chained c r) {m : M α} {f : α → M β} (hm : Runs E c r b m) (hf : ∀ a, Runs E c r b (f a)) : Runs E c r b (m >>= f) := by
  intro h k
  obtain ⟨a, h1, e1, k1⟩ := hm h k
  obtain ⟨y, h2, e2, k2⟩ := hf a h1 (k.after hc k1)
  exact ⟨y, h2, by rw [Py.bind_ok e1]; exact e2, k1.trans k2⟩

theorem read {f : Heap → M β} (hf : ∀ h, h.core = c → Runs E c r b (f h)) : Runs E c r b (Py.read >>= f) := by
  intro h k
  rw [Py.read_bind]
  exact hf h k.core h k

theorem ite {p : Prop} [Decidable p] {x y : M α} (hx : Runs E c r b x) (hy : Runs E c r b y) : Runs E c r b (if p then x else y) := by
  split_ifs
  · exact hx
  · exact hy

theorem mapEach (hc : Chained c r) {f : α → M β} {l : List α} (hf : ∀ a ∈ l, Runs E c r b (f a)) : Runs E c r b (Py.mapEach l f) := by
  induction l with
  | nil => exact pure _
  | cons x l ih =>
    show Runs E c r b (f x >>= fun y => Py.mapEach l f >>= fun ys => Pure.pure (y :: ys))
    exact bind hc (hf x (by simp)) fun _ => bind hc (ih fun a ha => hf a (by simp [ha])) fun _ => pure _

end Runs

theorem Tells.runs {m : M α} {v : Heap → α} (hm : Tells E c (· ∈ (c.route r).stops) m v) : Runs E c r b m := by
  intro h k
  obtain ⟨h', e, s⟩ := hm h k.core
  exact ⟨_, h', e, s.askedOf⟩

/-- A stop of a chained route: its predecessors. -/
theorem Chained.before (hc : Chained c r) {pre suf : List Nat} {s : Nat} (e : (c.route r).stops = pre ++ s :: suf) :
    s ∈ (c.route r).stops ∧ (∀ x ∈ pre.reverse, x ∈ (c.route r).stops) ∧ Anc c s pre.reverse ∧ pre.reverse.length ≤ c.nStop := by
  refine ⟨by rw [e]; simp, fun x hx => ?_, hc.anc e, hc.len e⟩
  rw [e]
  simp at hx ⊢
  exact Or.inl hx

theorem Chained.departure_tells (hc : Chained c r) {pre suf : List Nat} {s : Nat} (e : (c.route r).stops = pre ++ s :: suf) :
    Tells E c (· ∈ (c.route r).stops) (departure E s) fun h => (shown E h s pre.reverse).dep :=
  have ⟨h1, h2, h3, h4⟩ := hc.before e
  Jinete.departure_tells h3 h1 h2 h4

theorem Chained.arrival_tells (hc : Chained c r) {pre suf : List Nat} {s : Nat} (e : (c.route r).stops = pre ++ s :: suf) :
    Tells E c (· ∈ (c.route r).stops) (arrival E s) fun h => (shown E h s pre.reverse).arr :=
  have ⟨h1, h2, h3, h4⟩ := hc.before e
  Jinete.arrival_tells h3 h1 h2 h4

theorem Chained.starting_tells (hc : Chained c r) {pre suf : List Nat} {s : Nat} (e : (c.route r).stops = pre ++ s :: suf) :
    Tells E c (· ∈ (c.route r).stops) (starting E s) fun h => (shown E h s pre.reverse).start :=
  have ⟨h1, h2, h3, h4⟩ := hc.before e
  Jinete.starting_tells h3 h1 h2 h4

section
variable (hw : WellFormed c r)
include hw

theorem pickupTime_tells {p : Nat} (hp : p ∈ routePlannedTrips c r) :
    ∃ u pre suf, (c.route r).stops = pre ++ u :: suf ∧ (c.pt p).pickup = some u ∧
      Tells E c (· ∈ (c.route r).stops) (pickupTime E p) fun h => (shown E h u pre.reverse).dep := by
  obtain ⟨u, d, pre, mid, suf, e, hu, hd, _, _⟩ := hw.stops_of hp
  refine ⟨u, pre, _, e, hu, fun h hc => ?_⟩
  obtain ⟨h', e1, s⟩ := hw.departure_tells (E := E) e h hc
  refine ⟨h', ?_, s⟩
  unfold pickupTime
  rw [Py.bind_run, Settled.ptPickup_run, hc, hu]
  exact e1

theorem ptDuration_runs {p : Nat} (hp : p ∈ routePlannedTrips c r) : Runs E c r b (ptDuration E p) := by
  obtain ⟨u, d, pre, mid, suf, e, hu, hd, _, _⟩ := hw.stops_of hp
  have e2 : (c.route r).stops = (pre ++ u :: mid) ++ d :: suf := by rw [e]; simp
  have h1 : Runs E c r b (deliveryTime E p) := by
    intro h k
    obtain ⟨a, h', e1, s⟩ := (hw.starting_tells (E := E) e2).runs (b := b) h k
    refine ⟨a, h', ?_, s⟩
    unfold deliveryTime
    rw [Py.bind_run, Settled.ptDelivery_run, k.core, hd]
    exact e1
  obtain ⟨_, _, _, _, _, h2⟩ := pickupTime_tells (E := E) hw hp
  exact h1.bind hw.toChained fun _ => h2.runs.bind hw.toChained fun _ => Runs.pure _

theorem objectiveRoute_runs (k : Objective) : Runs E c r b (k.value E (.route r)) := by
  by_cases hk : k = .dialARide
  · subst hk
    exact Runs.read fun _ _ => Runs.pure _
  have trip : ∀ p ∈ routePlannedTrips c r, Runs E c r b (k.plannedTrip E p) := by
    intro p hp
    obtain ⟨_, _, _, _, _, h2⟩ := pickupTime_tells (E := E) hw hp
    cases k with
    | dialARide => exact absurd rfl hk
    | taxiSharing => exact Runs.read fun _ _ => Runs.ite (Runs.pure _) ((ptDuration_runs hw hp).bind hw.toChained fun _ => Runs.pure _)
    | hashCode => exact Runs.read fun _ _ => Runs.ite (Runs.pure _) (h2.runs.bind hw.toChained fun _ => Runs.pure _)
  have stop : ∀ s ∈ (c.route r).stops, Runs E c r b (k.stop E s) := by
    intro s hs
    refine Runs.read fun h e => (Runs.mapEach hw.toChained fun p hp => trip p (List.mem_flatMap.2 ⟨s, hs, ?_⟩)).bind hw.toChained fun _ => Runs.pure _
    rw [e] at hp
    exact hp
  show Runs E c r b (k.route E r)
  refine Runs.read fun h e => ?_
  have all : ∀ s ∈ (h.core.route r).stops, Runs E c r b (k.stop E s) := by rw [e]; exact stop
  cases k with
  | dialARide => exact Runs.pure _
  | taxiSharing => exact (Runs.mapEach hw.toChained all).bind hw.toChained fun _ => Runs.pure _
  | hashCode => exact (Runs.mapEach hw.toChained all).bind hw.toChained fun _ => Runs.pure _

/-- Verdicts of service stops. -/
theorem stopFeasible_runs {s : Nat} (hs : s ∈ (c.route r).stops) (hv : (c.stop s).pickups ≠ [] ∨ (c.stop s).deliveries ≠ []) :
    Runs E c r true (stopFeasible E s) := by
  obtain ⟨pre, suf, e⟩ := List.append_of_mem hs
  have hst := hw.starting_tells (E := E) e
  intro h k
  cases hm : h.sfeas s with
  | some x => exact ⟨x, h, memoised_some (get := Heap.sfeas) (put := putStop) (body := stopFeasible.body E) hm, AskedOf.refl h⟩
  | none =>
    have hl : LoadsFine E h r := by
      rcases k.loads rfl with h1 | h1
      · exact absurd hm (h1 s (by rw [k.core]; exact hs) (by rw [k.core]; exact hv))
      · exact h1
    obtain ⟨v, el⟩ := hl pre s suf (by rw [k.core]; exact e)
    obtain ⟨h1, h2, h3, h4⟩ := hw.before e
    have hcap : ∀ g, AlikeTimes E (· ∈ (c.route r).stops) h g → ∃ g', capacity E s g = (.ok v, g') ∧ SameVerdicts E (· ∈ (c.route r).stops) g g' := by
      intro g a
      have eg : g.core = c := a.core.trans k.core
      obtain ⟨g', e1, s1⟩ := capacityF_run (E := E) (c.nStop + 1) s pre.reverse h3 h1 h2 (by omega) g eg
      refine ⟨g', ?_, s1⟩
      rw [a.load s _ h1 (by rw [k.core]; exact h3), el] at e1
      unfold capacity Heap.fuel
      rw [eg]
      exact e1
    have body : ∃ x g, stopFeasible.body E s h = (.ok x, g) ∧ SameVerdicts E (· ∈ (c.route r).stops) h g := by
      unfold stopFeasible.body
      rw [Py.read_bind]
      obtain ⟨g1, e1, s1⟩ := hst h k.core
      rw [Py.bind_ok e1]
      split_ifs with hq
      · obtain ⟨g2, e2, s2⟩ := hst g1 (s1.core.trans k.core)
        have s12 := (sameVerdicts E _).trans _ _ _ s1 s2
        rw [Py.bind_ok e2]
        split_ifs
        · obtain ⟨g3, e3, s3⟩ := hcap g2 s12.toAlikeTimes
          rw [Py.bind_ok e3]
          split_ifs
          · exact ⟨_, g3, rfl, (sameVerdicts E _).trans _ _ _ s12 s3⟩
          · exact ⟨_, g3, rfl, (sameVerdicts E _).trans _ _ _ s12 s3⟩
        · exact ⟨_, g2, rfl, s12⟩
      · exact ⟨_, g1, rfl, s1⟩
    obtain ⟨x, g, e1, s1⟩ := body
    refine ⟨x, putStop s x g, ?_, s1.askedOf.trans ⟨⟨rfl, fun y anc _ _ => shown_congr (h := _) (h' := _) (by rfl) (by rfl) (by rfl) anc y,
      fun y anc _ _ => shownLoad_congr (h := _) (h' := _) (by rfl) (by rfl) anc y, fun _ _ => ⟨rfl, rfl, rfl⟩⟩, fun y hy => ?_⟩⟩
    · have := memoised_none (put := putStop) (body := stopFeasible.body E) (get := Heap.sfeas) hm
      rw [e1] at this
      exact this
    · by_cases hys : y = s
      · subst hys; simp [putStop]
      · simp [putStop, Function.update_of_ne hys, hy]

/-- Verdicts of planned trips. -/
theorem ptFeasible_runs {p : Nat} (hp : p ∈ routePlannedTrips c r) : Runs E c r true (ptFeasible E p) := by
  obtain ⟨u, d, pre, mid, suf, e, hu, hd, hpu, hpd⟩ := hw.stops_of hp
  have e2 : (c.route r).stops = (pre ++ u :: mid) ++ d :: suf := by rw [e]; simp
  have hus : u ∈ (c.route r).stops := by rw [e]; simp
  have hds : d ∈ (c.route r).stops := by rw [e]; simp
  have su := stopFeasible_runs (E := E) hw hus (.inl (List.ne_nil_of_mem hpu))
  have sd := stopFeasible_runs (E := E) hw hds (.inr (List.ne_nil_of_mem hpd))
  intro h k
  cases hm : h.pfeas p with
  | some x => exact ⟨x, h, memoised_some (get := Heap.pfeas) (put := putTrip) (body := ptFeasible.body E) hm, AskedOf.refl h⟩
  | none =>
    have body : ∃ x g, ptFeasible.body E p h = (.ok x, g) ∧ AskedOf E c r h g := by
      have ed : ∀ g : Heap, g.core = c → ptDelivery p g = (.ok d, g) := fun g eg => by
        rw [Settled.ptDelivery_run, eg, hd]
      have eu : ∀ g : Heap, g.core = c → ptPickup p g = (.ok u, g) := fun g eg => by
        rw [Settled.ptPickup_run, eg, hu]
      obtain ⟨g0, e0, _⟩ := allPrevious_reads (E := E) (L := []) (hw.anc e2) (hw.len e2) h k.core (by simp)
      have e0' : allPrevious d h = (.ok (pre ++ u :: mid).reverse, h) := by
        obtain ⟨v, hv⟩ := Settled.allPreviousF (h.core.nStop + 1) d
        have := hv h
        have e1 : allPrevious d h = (v h.core, h) := this
        rw [e1] at e0
        injection e0 with e3 e4
        rw [e1, e3]
      unfold ptFeasible.body
      rw [Py.bind_ok (ed h k.core), Py.bind_ok e0', Py.read_bind]
      have ea : Py.assert (decide (∃ x ∈ (h.core.pt p).pickup, x ∈ (pre ++ u :: mid).reverse)) h = (.ok (), h) := by
        rw [decide_eq_true ⟨u, by rw [k.core, hu]; rfl, by simp⟩]; rfl
      rw [Py.bind_ok ea]
      obtain ⟨g1, e1, s1⟩ := hw.departure_tells (E := E) e h k.core
      have e1' : pickupTime E p h = (.ok (shown E h u pre.reverse).dep, g1) := by
        unfold pickupTime; rw [Py.bind_ok (eu h k.core)]; exact e1
      have c1 : g1.core = c := s1.core.trans k.core
      obtain ⟨g2, e3, s2⟩ := hw.starting_tells (E := E) e2 g1 c1
      have e3' : deliveryTime E p g1 = (.ok (shown E h d (pre ++ u :: mid).reverse).start, g2) := by
        unfold deliveryTime
        rw [Py.bind_ok (ed g1 c1), e3]
        simp only []
        rw [s1.times d _ hds (by rw [k.core]; exact hw.anc e2)]
      have hle : (shown E h u pre.reverse).dep ≤ (shown E h d (pre ++ u :: mid).reverse).start := by
        refine le_trans ?_ shown_arr_le
        have hrow := k.row
        rw [e2, shownRow_append, List.pairwise_append] at hrow
        refine (hrow.2.2 _ (by simpa using shownRow_mem (E := E) (h := h) pre mid u []) _ ?_).1
        simp [shownRow]
      have eb : Py.assert (decide ((shown E h u pre.reverse).dep ≤ (shown E h d (pre ++ u :: mid).reverse).start)) g2 = (.ok (), g2) := by
        rw [decide_eq_true hle]; rfl
      have k12 := (s1.askedOf).trans s2.askedOf
      have a2 : Askable E c r true g2 := k.after hw.toChained k12
      rw [Py.bind_ok e1', Py.bind_ok e3', Py.bind_ok eb, Py.bind_ok (eu g2 a2.core)]
      have rest : Runs E c r true (stopFeasible E u >>= fun b =>
          if ¬ b then Pure.pure false else (ptDelivery p >>= fun d => stopFeasible E d >>= fun b =>
            if ¬ b then Pure.pure false else (ptDuration E p >>= fun dur => Py.read >>= fun h =>
              if ¬ (((ptTrip E h.core p).timeout.addQ errorBound).leQ dur = true) then Pure.pure false else Pure.pure true))) := by
        refine su.bind hw.toChained fun _ => Runs.ite (Runs.pure _) ?_
        have hd' : Runs E c r true (stopFeasible E d >>= fun b =>
            if ¬ b then Pure.pure false else (ptDuration E p >>= fun dur => Py.read >>= fun h =>
              if ¬ (((ptTrip E h.core p).timeout.addQ errorBound).leQ dur = true) then Pure.pure false else Pure.pure true)) :=
          sd.bind hw.toChained fun _ => Runs.ite (Runs.pure _) ((ptDuration_runs hw hp).bind hw.toChained fun _ =>
            Runs.read fun _ _ => Runs.ite (Runs.pure _) (Runs.pure _))
        intro g kg
        rw [Py.bind_ok (ed g kg.core)]
        exact hd' g kg
      obtain ⟨x, g, e4, s4⟩ := rest g2 a2
      exact ⟨x, g, e4, k12.trans s4⟩
    obtain ⟨x, g, e1, s1⟩ := body
    refine ⟨x, putTrip p x g, ?_, s1.trans ⟨⟨rfl, fun y anc _ _ => shown_congr (h := _) (h' := _) (by rfl) (by rfl) (by rfl) anc y,
      fun y anc _ _ => shownLoad_congr (h := _) (h' := _) (by rfl) (by rfl) anc y, fun _ _ => ⟨rfl, rfl, rfl⟩⟩, fun y hy => hy⟩⟩
    have := memoised_none (put := putTrip) (body := ptFeasible.body E) (get := Heap.pfeas) hm
    rw [e1] at this
    exact this

/-- Verdicts of routes. -/
theorem routeFeasible_runs : Runs E c r true (routeFeasible E r) := by
  obtain ⟨f, rest, ef⟩ : ∃ f rest, (c.route r).stops = f :: rest := by
    cases e : (c.route r).stops with
    | nil => have := hw.length; rw [e] at this; simp at this
    | cons f rest => exact ⟨f, rest, rfl⟩
  have hne : (c.route r).stops ≠ [] := by rw [ef]; simp
  have el : (c.route r).stops = (c.route r).stops.dropLast ++ (c.route r).stops.getLast hne :: [] :=
    (List.dropLast_append_getLast hne).symm
  have hf : ∀ g : Heap, g.core = c → firstStop r g = (.ok f, g) := fun g eg => by
    have : (c.stop f).previous = none := hw.anc (pre := []) ef
    rw [Settled.firstStop_run, eg, ef]
    simp [this]
  have hl : ∀ g : Heap, g.core = c → lastStop r g = (.ok ((c.route r).stops.getLast hne), g) := fun g eg => by
    rw [Settled.lastStop_run, eg, List.getLast?_eq_some_getLast hne]
  have bindF {β : Type} {F : Nat → M β} (hF : Runs E c r true (F f)) : Runs E c r true (firstStop r >>= F) := fun h k => by
    rw [Py.bind_ok (hf h k.core)]; exact hF h k
  have bindL {β : Type} {F : Nat → M β} (hF : Runs E c r true (F ((c.route r).stops.getLast hne))) : Runs E c r true (lastStop r >>= F) := fun h k => by
    rw [Py.bind_ok (hl h k.core)]; exact hF h k
  have af : Runs E c r true (arrival E f) := (hw.arrival_tells (pre := []) ef).runs
  have df : Runs E c r true (departure E f) := (hw.departure_tells (pre := []) ef).runs
  have dl : Runs E c r true (departure E ((c.route r).stops.getLast hne)) := (hw.departure_tells el).runs
  have dur : Runs E c r true (routeDuration E r) :=
    bindL (dl.bind hw.toChained fun _ => bindF (df.bind hw.toChained fun _ => Runs.pure _))
  have trips : Runs E c r true (feasiblePlannedTrips E r) := Runs.read fun h e =>
    (Runs.mapEach hw.toChained fun p hp => ptFeasible_runs hw (by rw [e] at hp; exact hp)).bind hw.toChained fun _ => Runs.pure _
  have body : Runs E c r true (routeFeasible.body E r) := by
    refine Runs.read fun h e => bindF (Runs.ite (Runs.pure _) (bindF (af.bind hw.toChained fun _ => Runs.ite (Runs.pure _) (bindL
      (Runs.ite (Runs.pure _) (bindL (dl.bind hw.toChained fun _ => Runs.ite (Runs.pure _) (dur.bind hw.toChained fun _ => Runs.ite (Runs.pure _)
        (trips.bind hw.toChained fun _ => Runs.ite (Runs.pure _) (Runs.pure _)))))))))) 
  intro h k
  cases hm : h.rfeas r with
  | some x => exact ⟨x, h, memoised_some (get := Heap.rfeas) (put := putRoute) (body := routeFeasible.body E) hm, AskedOf.refl h⟩
  | none =>
    obtain ⟨x, g, e1, s1⟩ := body h k
    refine ⟨x, putRoute r x g, ?_, s1.trans ⟨⟨rfl, fun y anc _ _ => shown_congr (h := _) (h' := _) (by rfl) (by rfl) (by rfl) anc y,
      fun y anc _ _ => shownLoad_congr (h := _) (h' := _) (by rfl) (by rfl) anc y, fun _ _ => ⟨rfl, rfl, rfl⟩⟩, fun y hy => hy⟩⟩
    have := memoised_none (put := putRoute) (body := routeFeasible.body E) (get := Heap.rfeas) hm
    rw [e1] at this
    exact this

/-- The assertions on a route hold. -/
theorem checkRoute_askable {h : Heap} (k : Askable E c r b h) : ∃ h', checkRoute E r h = (.ok (), h') ∧ AskedOf E c r h h' := by
  have key : ∀ (suf pre : List Nat), (c.route r).stops = pre ++ suf → ∀ g, Askable E c r b g →
      ∃ g', timesCheck E suf g = (.ok true, g') ∧ AskedOf E c r g g' := by
    intro suf
    induction suf with
    | nil => exact fun _ _ g _ => ⟨g, rfl, AskedOf.refl g⟩
    | cons s1 suf ih =>
      cases suf with
      | nil => exact fun _ _ g _ => ⟨g, rfl, AskedOf.refl g⟩
      | cons s2 suf =>
        intro pre e g kg
        have e2 : (c.route r).stops = (pre ++ [s1]) ++ s2 :: suf := by simp [e]
        obtain ⟨g1, x1, k1⟩ := hw.departure_tells (E := E) e g kg.core
        have c1 : g1.core = c := k1.core.trans kg.core
        obtain ⟨g2, x2, k2⟩ := hw.arrival_tells (E := E) e2 g1 c1
        have k12 := k1.askedOf.trans k2.askedOf
        obtain ⟨g3, x3, k3⟩ := ih (pre ++ [s1]) e2 g2 (kg.after hw.toChained k12)
        refine ⟨g3, ?_, k12.trans k3⟩
        have hle : (shown E g s1 pre.reverse).dep ≤ (shown E g1 s2 (pre ++ [s1]).reverse).arr := by
          rw [k1.times s2 _ (by rw [e]; simp) (by rw [kg.core]; exact hw.anc e2)]
          have hrow := kg.row
          rw [e2, shownRow_append, List.pairwise_append] at hrow
          exact (hrow.2.2 _ (by simpa using shownRow_mem (E := E) (h := g) pre [] s1 []) _ (by simp [shownRow])).1
        show (departure E s1 >>= fun d => arrival E s2 >>= fun a => if d ≤ a then timesCheck E (s2 :: suf) else Pure.pure false) g = _
        rw [Py.bind_ok x1, Py.bind_ok x2, if_pos hle]
        exact x3
  obtain ⟨h', e, s⟩ := key _ [] rfl h k
  refine ⟨h', ?_, s⟩
  unfold checkRoute
  rw [Py.read_bind, k.core]
  have e1 : Py.assert (linkedCheck c (c.route r).stops) h = (.ok (), h) := by rw [linkedCheck_of_linked hw.linked]; rfl
  rw [Py.bind_ok e1, Py.bind_ok e]
  rfl

end
end

/-! ## Questions that memoise no load -/

/-- Whatever the state, no load is memoised. -/
def KeepsLoads {α : Type} (m : M α) : Prop := ∀ h, (m h).2.cap = h.cap

namespace KeepsLoads
variable {α β : Type}

theorem pure (a : α) : KeepsLoads (Pure.pure a : M α) := fun _ => rfl
theorem raise (e : Err) : KeepsLoads (Py.raise e : M α) := fun _ => rfl
theorem read : KeepsLoads (Py.read : M Heap) := fun _ => rfl

theorem bind {m : M α} {f : α → M β} (hm : KeepsLoads m) (hf : ∀ a, KeepsLoads (f a)) : KeepsLoads (m >>= f) := by
  intro h
  rw [Py.bind_run]
  have := hm h
  cases e : m h with
  | mk x h1 =>
    rw [e] at this
    cases x with
    | ok a => exact (hf a h1).trans this
    | error e => exact this

theorem assert (b : Bool) : KeepsLoads (Py.assert b : M Unit) := by
  cases b
  · exact raise _
  · exact pure _

theorem unwrap (e : Err) (o : Option α) : KeepsLoads (Py.unwrap e o : M α) := by
  cases o
  · exact raise _
  · exact pure _

theorem ite {p : Prop} [Decidable p] {a b : M α} (ha : KeepsLoads a) (hb : KeepsLoads b) : KeepsLoads (if p then a else b) := by
  split_ifs
  · exact ha
  · exact hb

theorem mapEach {f : α → M β} (hf : ∀ a, KeepsLoads (f a)) (l : List α) : KeepsLoads (Py.mapEach l f) := by
  induction l with
  | nil => exact pure _
  | cons x l ih =>
    show KeepsLoads (f x >>= fun y => Py.mapEach l f >>= fun ys => Pure.pure (y :: ys))
    exact bind (hf x) fun _ => bind ih fun _ => pure _

theorem memo {f : Heap → Heap} (hf : ∀ h, (f h).cap = h.cap) : KeepsLoads (Py.modify f) := hf

variable (E : Env)

theorem prevDepartureWith {dep : Nat → M ℚ} (hd : ∀ s, KeepsLoads (dep s)) (s : Nat) : KeepsLoads (prevDepartureWith E dep s) := by
  refine bind read fun h => ?_
  cases (h.core.stop s).previous with
  | none => exact pure _
  | some p => exact hd p

theorem arrivalWith {dep : Nat → M ℚ} (hd : ∀ s, KeepsLoads (dep s)) (s : Nat) : KeepsLoads (arrivalWith E dep s) := by
  refine bind read fun h => ?_
  cases h.arr s with
  | some v => exact pure _
  | none =>
    exact bind (prevDepartureWith E hd s) fun _ => bind (bind read fun _ => bind (prevDepartureWith E hd s) fun _ => pure _) fun _ =>
      bind (memo fun _ => rfl) fun _ => pure _

theorem startingWith {dep : Nat → M ℚ} (hd : ∀ s, KeepsLoads (dep s)) (s : Nat) : KeepsLoads (startingWith E dep s) := by
  refine bind read fun h => ?_
  cases (h.core.stop s).start with
  | some v => exact bind (arrivalWith E hd s) fun _ => pure _
  | none => exact bind (arrivalWith E hd s) fun _ => bind (arrivalWith E hd s) fun _ => pure _

theorem departureF (n : Nat) : ∀ s, KeepsLoads (departureF E n s) := by
  induction n with
  | zero => exact fun s => raise _
  | succ n ih =>
    intro s
    refine bind read fun h => ?_
    cases h.dep s with
    | some v => exact pure _
    | none => exact bind (startingWith E ih s) fun _ => bind (memo fun _ => rfl) fun _ => pure _

theorem departure (s : Nat) : KeepsLoads (departure E s) := fun h => departureF E h.fuel s h
theorem arrival (s : Nat) : KeepsLoads (arrival E s) := fun h => arrivalWith E (departureF E h.fuel) s h
theorem starting (s : Nat) : KeepsLoads (starting E s) := fun h => startingWith E (departureF E h.fuel) s h

theorem pickupTime (p : Nat) : KeepsLoads (pickupTime E p) := bind (bind read fun _ => unwrap _ _) fun _ => departure E _
theorem deliveryTime (p : Nat) : KeepsLoads (deliveryTime E p) := bind (bind read fun _ => unwrap _ _) fun _ => starting E _

theorem timesCheck : ∀ l : List Nat, KeepsLoads (timesCheck E l)
  | [] => pure _
  | [_] => pure _
  | s1 :: s2 :: l => bind (departure E s1) fun _ => bind (arrival E s2) fun _ => ite (timesCheck (s2 :: l)) (pure _)

theorem checkRoute (r : Nat) : KeepsLoads (checkRoute E r) :=
  bind read fun _ => bind (assert _) fun _ => bind (timesCheck E _) fun _ => assert _

theorem objectiveRoute (k : Objective) (r : Nat) : KeepsLoads (k.value E (.route r)) := by
  by_cases hk : k = .dialARide
  · subst hk
    exact bind read fun _ => pure _
  have trip : ∀ p, KeepsLoads (k.plannedTrip E p) := by
    intro p
    cases k with
    | dialARide => exact absurd rfl hk
    | taxiSharing =>
      exact bind read fun _ => ite (pure _) (bind (bind (deliveryTime E p) fun _ => bind (pickupTime E p) fun _ => pure _) fun _ => pure _)
    | hashCode => exact bind read fun _ => ite (pure _) (bind (pickupTime E p) fun _ => pure _)
  have stop : ∀ s, KeepsLoads (k.stop E s) := fun s => bind read fun _ => bind (mapEach trip _) fun _ => pure _
  show KeepsLoads (k.route E r)
  refine bind read fun h => ?_
  cases k with
  | dialARide => exact absurd rfl hk
  | taxiSharing => exact bind (mapEach stop _) fun _ => pure _
  | hashCode => exact bind (mapEach stop _) fun _ => pure _

end KeepsLoads

/-! ## Routes ready for one-shift -/

/-- Without memoised loads every load can be computed. -/
theorem NoLoads.fine (hE : EnvOK E) {h : Heap} {r : Nat} (hw : WellFormed h.core r) (hn : NoLoads h r) : LoadsFine E h r := by
  intro pre s suf e
  obtain ⟨h1, h2, h3, h4⟩ := hw.before e
  obtain ⟨g, e1, _⟩ := hw.capacity_reads hE e { h with arr := fun _ => none, dep := fun _ => none } rfl (by
    intro x hx anc' _
    exact ⟨fun v e => by simp at e, fun v e => by simp at e, fun v e => by simp [hn x hx] at e⟩)
  obtain ⟨g', e2, _⟩ := capacityF_run (E := E) (L := (· ∈ (h.core.route r).stops)) (h.core.nStop + 1) s pre.reverse h3 h1 h2 (by omega)
    { h with arr := fun _ => none, dep := fun _ => none } rfl
  have e3 := e1.symm.trans e2
  injection e3 with e4 e5
  refine ⟨_, Eq.trans ?_ e4.symm⟩
  exact shownLoad_congr (h := _) (h' := _) (by rfl) (by rfl) _ _

/-- What one-shift needs to know of a route in order to return. -/
structure Shiftable (E : Env) (h : Heap) (r : Nat) : Prop where
  wf : WellFormed h.core r
  row : (shownRow E h [] (h.core.route r).stops).Pairwise LeftBefore
  armed : h.rfeas r ≠ none ∨ StopsJudged h r ∨ NoLoads h r

/-- Several routes, with different vehicles. -/
structure AllShiftable (E : Env) (h : Heap) (rs : List Nat) : Prop where
  each : ∀ r ∈ rs, Shiftable E h r
  vehicles : (rs.map fun r => (h.core.route r).vehicle).Nodup

section
variable {h h' : Heap} {rs : List Nat} {r : Nat}

theorem AllShiftable.apart (f : AllShiftable E h rs) (hr : r ∈ rs) {q : Nat} (hq : q ∈ rs) (hne : q ≠ r) :
    ∀ s ∈ (h.core.route q).stops, s ∉ (h.core.route r).stops :=
  stops_apart (f.each q hq).wf.toChained (f.each r hr).wf.toChained fun e =>
    hne (List.inj_on_of_nodup_map f.vehicles hq hr e)

theorem Shiftable.askable (k : Shiftable E h r) : Askable E h.core r false h := ⟨rfl, k.row, by simp⟩

theorem AllShiftable.asked (f : AllShiftable E h rs) (hr : r ∈ rs) (a : AskedOf E h.core r h h') (m : OnlyMemos h h')
    (hl : h'.cap = h.cap ∨ h'.rfeas r ≠ none) : AllShiftable E h' rs := by
  have ec := m.core
  refine ⟨fun q hq => ⟨by rw [ec]; exact (f.each q hq).wf, ?_, ?_⟩, by rw [ec]; exact f.vehicles⟩
  · rw [ec]
    by_cases hqr : q = r
    · subst hqr
      exact ((f.each q hq).askable.after (f.each q hq).wf.toChained a).row
    · rw [shownRow_congr _ _ fun pre s suf e => ?_]
      · exact (f.each q hq).row
      · refine shown_local (by rw [ec]) _ s fun x hx => ?_
        have hxq : x ∈ (h.core.route q).stops := by
          rw [e]
          simp at hx ⊢
          tauto
        have := a.alike.others x (f.apart hr hq hqr x hxq)
        exact ⟨by rw [ec], this.1, this.2.1⟩
  · rcases (f.each q hq).armed with h1 | h1 | h1
    · left
      cases e : h.rfeas q with
      | none => exact absurd e h1
      | some b => rw [m.routeVerdict q b e]; simp
    · right; left
      intro s hs hv
      rw [ec] at hs hv
      exact a.judged s (h1 s hs hv)
    · by_cases hqr : q = r
      · subst hqr
        rcases hl with h2 | h2
        · right; right
          intro s hs
          rw [ec] at hs
          rw [h2]
          exact h1 s hs
        · exact .inl h2
      · right; right
        intro s hs
        rw [ec] at hs
        rw [(a.alike.others s (f.apart hr hq hqr s hs)).2.2]
        exact h1 s hs

theorem AllShiftable.flipped (hE : EnvOK E) (f : AllShiftable E h rs) (hr : r ∈ rs) {pre suf : List Nat} {a b : Nat}
    (es : (h.core.route r).stops = pre ++ a :: b :: suf) (hp : pre ≠ []) (hw : WellFormed (flipCore h.core r pre a b suf) r) :
    AllShiftable E (flushStops { h with core := flipCore h.core r pre a b suf } (a :: suf)) rs := by
  have fl := flip_shifted es
  have hn := (f.each r hr).wf.nodup
  rw [es] at hn
  have hout : ∀ x ∈ pre, x ∉ a :: b :: suf := fun x hx h2 => (List.nodup_append.1 hn).2.2 x hx x h2 rfl
  have hb : b ∉ a :: suf := by
    have := (List.nodup_append.1 hn).2.1
    simp only [List.nodup_cons, List.mem_cons, not_or] at this ⊢
    exact ⟨fun e => this.1.1 e.symm, this.2.1⟩
  have armed : ∀ q ∈ rs, StopsJudged h q ∨ NoLoads h q →
      StopsJudged (flushStops { h with core := flipCore h.core r pre a b suf } (a :: suf)) q ∨
      NoLoads (flushStops { h with core := flipCore h.core r pre a b suf } (a :: suf)) q := by
    intro q hq hj
    have hst : ∀ s, s ∈ ((flipCore h.core r pre a b suf).route q).stops → s ∈ (h.core.route q).stops := by
      intro s hs
      by_cases hqr : q = r
      · subst hqr; exact fl.stops.mem_iff.1 hs
      · rw [fl.route q hqr] at hs; exact hs
    rcases hj with h1 | h1
    · left
      intro s hs hv
      rw [flushStops_core] at hs hv
      rw [flushStops_sfeas]
      simp only [flipCore_pickups, flipCore_deliveries] at hv
      exact h1 s (hst s hs) hv
    · right
      intro s hs
      rw [flushStops_core] at hs
      rw [flushStops_cap]
      split_ifs
      · rfl
      · exact h1 s (hst s hs)
  refine ⟨fun q hq => ⟨?_, ?_, ?_⟩, ?_⟩
  · rw [flushStops_core]
    by_cases hqr : q = r
    · subst hqr; exact hw
    · exact (fl.same (R := (· = q)) fun x hx => by subst hx; exact ⟨hqr, f.apart hr hq hqr⟩).wf rfl (f.each q hq).wf
  · rw [flushStops_core]
    by_cases hqr : q = r
    · subst hqr
      show (shownRow E _ [] ((flipCore h.core q pre a b suf).route q).stops).Pairwise LeftBefore
      rw [flipCore_stops]
      have old := (f.each q hq).row
      rw [es] at old
      have epre : shownRow E (flushStops { h with core := flipCore h.core q pre a b suf } (a :: suf)) [] pre = shownRow E h [] pre := by
        refine shownRow_congr _ _ fun p1 s p2 e => shown_local (by rw [flushStops_core]; exact fl.pt) _ s fun x hx => ?_
        have hxp : x ∈ pre := by
          rw [e]
          simp at hx ⊢
          tauto
        have hx' : x ∉ a :: suf := fun h0 => hout x hxp (by simp at h0 ⊢; tauto)
        refine ⟨?_, ?_, ?_⟩
        · rw [flushStops_core]; exact flipCore_other (hout x hxp)
        · rw [flushStops_arr, if_neg hx']
        · rw [flushStops_dep, if_neg hx']
      have hb1 : ∀ x ∈ shownRow E h [] pre, LeftBefore x (shown E h b (a :: pre.reverse)) := by
        rw [shownRow_append, List.pairwise_append] at old
        exact fun x hx => old.2.2 x hx _ (by simp [shownRow])
      have hpb : (shownRow E (flushStops { h with core := flipCore h.core q pre a b suf } (a :: suf)) [] (pre ++ [b])).Pairwise LeftBefore := by
        refine shownRow_extend hE hp ?_ ?_ ?_
        · rw [epre]
          rw [shownRow_append, List.pairwise_append] at old
          exact old.1
        · intro v e x hx
          rw [epre] at hx
          rw [flushStops_arr, if_neg hb] at e
          have := (hb1 x hx).1
          simp only [shown, shownStep] at this
          rw [show h.arr b = some v from e] at this
          exact this
        · intro v e x hx
          rw [epre] at hx
          rw [flushStops_dep, if_neg hb] at e
          have := (hb1 x hx).2
          simp only [shown, shownStep] at this
          rw [show h.dep b = some v from e] at this
          exact this
      have := shownRow_fresh hE (a :: suf) (pre ++ [b]) (by simp) hpb fun s hs =>
        ⟨by rw [flushStops_arr, if_pos hs], by rw [flushStops_dep, if_pos hs]⟩
      simpa using this
    · show (shownRow E _ [] ((flipCore h.core r pre a b suf).route q).stops).Pairwise LeftBefore
      rw [fl.route q hqr, shownRow_congr _ _ fun p1 s p2 e => ?_]
      · exact (f.each q hq).row
      · refine shown_local (by rw [flushStops_core]; exact fl.pt) _ s fun x hx => ?_
        have hxq : x ∈ (h.core.route q).stops := by
          rw [e]
          simp at hx ⊢
          tauto
        have hxr := f.apart hr hq hqr x hxq
        have hx' : x ∉ a :: suf := fun h0 => hxr (by rw [es]; simp at h0 ⊢; tauto)
        refine ⟨?_, ?_, ?_⟩
        · rw [flushStops_core]; exact fl.other x hxr
        · rw [flushStops_arr, if_neg hx']
        · rw [flushStops_dep, if_neg hx']
  · rcases (f.each q hq).armed with h1 | h1
    · left; rw [flushStops_rfeas]; exact h1
    · exact .inr (armed q hq h1)
  · have : (rs.map fun q => ((flipCore h.core r pre a b suf).route q).vehicle) = rs.map fun q => (h.core.route q).vehicle := by
      refine List.map_congr_left fun q _ => ?_
      by_cases hqr : q = r
      · subst hqr; exact fl.vehicle
      · rw [fl.route q hqr]
    rw [flushStops_core]
    show (rs.map fun q => ((flipCore h.core r pre a b suf).route q).vehicle).Nodup
    rw [this]
    exact f.vehicles

/-! ## The loops -/

theorem routeFeasible_stored {x : Bool} (e : routeFeasible E r h = (.ok x, h')) : h'.rfeas r = some x := by
  cases hm : h.rfeas r with
  | some y =>
    have := memoised_some (get := Heap.rfeas) (put := putRoute) (body := routeFeasible.body E) hm
    have e2 := e.symm.trans this
    injection e2 with e3 e4
    injection e3 with e3
    subst e4
    rw [hm, e3]
  | none =>
    have e0 := memoised_none (put := putRoute) (body := routeFeasible.body E) (get := Heap.rfeas) hm
    have e2 := e.symm.trans e0
    cases hbd : routeFeasible.body E r h with
    | mk y g =>
      rw [hbd] at e2
      cases y with
      | error er => simp at e2
      | ok y =>
        simp only [Prod.mk.injEq, Except.ok.injEq] at e2
        rw [e2.2, e2.1]
        simp [putRoute]

theorem oneShiftRejects_returns (hE : EnvOK E) (k : Objective) (f : AllShiftable E h rs) (hr : r ∈ rs) (cost : List ℚ) :
    ∃ x h', oneShiftRejects E k r cost h = (.ok x, h') ∧ AllShiftable E h' rs := by
  have hw := (f.each r hr).wf
  have hv : ∃ x g, routeFeasible E r h = (.ok x, g) ∧ AskedOf E h.core r h g := by
    cases hm : h.rfeas r with
    | some y =>
      exact ⟨y, h, memoised_some (get := Heap.rfeas) (put := putRoute) (body := routeFeasible.body E) hm, AskedOf.refl h⟩
    | none =>
      refine routeFeasible_runs hw h ⟨rfl, (f.each r hr).row, fun _ => ?_⟩
      rcases (f.each r hr).armed with h1 | h1 | h1
      · exact absurd hm h1
      · exact .inl h1
      · exact .inr (h1.fine hE hw)
  obtain ⟨x, g, e, a⟩ := hv
  have st := routeFeasible_stored e
  have m1 := (Silent.routeFeasible E r).ok e
  have f1 := f.asked hr a m1 (.inr (by rw [st]; simp))
  unfold oneShiftRejects
  rw [Py.bind_ok e]
  cases x with
  | false => exact ⟨_, g, rfl, f1⟩
  | true =>
    rw [if_pos rfl]
    have hw1 := (f1.each r hr).wf
    have hbest : Runs E g.core r false (k.best E [some (.tuple cost), some (.route r)]) := by
      refine (Runs.mapEach hw1.toChained fun y hy => ?_).bind hw1.toChained fun _ => Runs.pure _
      have hy' : y = .tuple cost ∨ y = .route r := by simpa using hy
      rcases hy' with rfl | rfl
      · exact (Runs.pure _).bind hw1.toChained fun _ => Runs.pure _
      · exact (objectiveRoute_runs hw1 k).bind hw1.toChained fun _ => Runs.pure _
    obtain ⟨y, g2, e2, a2⟩ := hbest g (f1.each r hr).askable
    have m2 := (Silent.best E k _).ok e2
    rw [Py.bind_ok e2]
    exact ⟨_, g2, rfl, f1.asked hr a2 m2 (.inr (by rw [m2.routeVerdict r true st]; simp))⟩

theorem objective_returns (k : Objective) (f : AllShiftable E h rs) (hr : r ∈ rs) :
    ∃ x h', k.value E (.route r) h = (.ok x, h') ∧ AllShiftable E h' rs := by
  obtain ⟨x, g, e, a⟩ := objectiveRoute_runs (b := false) (f.each r hr).wf k h (f.each r hr).askable
  refine ⟨x, g, e, f.asked hr a ((Silent.objective E k (.route r)).ok e) (.inl ?_)⟩
  have := KeepsLoads.objectiveRoute E k r h
  rw [e] at this
  exact this

theorem oneShiftAt_returns (hE : EnvOK E) (k : Objective) (f : AllShiftable E h rs) (hr : r ∈ rs) {i : Nat} (h1 : 1 ≤ i)
    (hi : i + 1 < (h.core.route r).stops.length) (cost : List ℚ) :
    ∃ cost' h', oneShiftAt E k r i cost h = (.ok cost', h') ∧ AllShiftable E h' rs := by
  have hw := (f.each r hr).wf
  obtain ⟨pre, a, b, suf, es, hpre, ea, eb, ec⟩ := split_pair hi
  have hpn : pre ≠ [] := by rintro rfl; simp at hpre; omega
  have k1 : routeStops r h = (.ok (h.core.route r).stops, h) := rfl
  have k2 : (Py.index (h.core.route r).stops i : M Nat) h = (.ok a, h) := by unfold Py.index; rw [ea]; rfl
  have k3 : (Py.index (h.core.route r).stops (i + 1) : M Nat) h = (.ok b, h) := by unfold Py.index; rw [eb]; rfl
  unfold oneShiftAt
  rw [Py.bind_ok k1, Py.bind_ok k2, Py.bind_ok k3, Py.read_bind]
  by_cases hb : ((h.core.stop a).pickups.any fun p => (h.core.stop b).deliveries.contains p) = true
  · rw [if_pos hb]
    exact ⟨cost, h, rfl, f⟩
  · rw [if_neg hb, ec, Py.bind_ok (flipStops_run es hw.toChained)]
    have hb' : ∀ p ∈ (h.core.stop a).pickups, p ∉ (h.core.stop b).deliveries := by
      intro p hp hq
      exact hb (List.any_eq_true.2 ⟨p, hp, by simpa using hq⟩)
    have hwf := flip_wf hw es hpn hb'
    have f1 := f.flipped hE hr es hpn hwf
    generalize hg : flushStops { h with core := flipCore h.core r pre a b suf } (a :: suf) = g at f1
    have gc : g.core = flipCore h.core r pre a b suf := by rw [← hg, flushStops_core]
    obtain ⟨x, g1, e1, f2⟩ := oneShiftRejects_returns hE k f1 hr cost
    have c1 : g1.core = flipCore h.core r pre a b suf := ((Silent.oneShiftRejects E k r cost).ok e1).core.trans gc
    rw [Py.bind_ok e1]
    cases x with
    | true =>
      rw [if_pos rfl]
      have es' : (g1.core.route r).stops = pre ++ b :: a :: suf := by rw [c1, flipCore_stops]
      have hback : flipCore g1.core r pre b a suf = h.core := by rw [c1]; exact flipCore_back hw.toChained es
      rw [Py.bind_ok (flipStops_run es' (f2.each r hr).wf.toChained)]
      exact ⟨cost, _, rfl, f2.flipped hE hr es' hpn (by rw [hback]; exact hw)⟩
    | false =>
      rw [if_neg (by simp)]
      exact objective_returns k f2 hr

theorem oneShiftLoop_returns (hE : EnvOK E) (k : Objective) (hr : r ∈ rs) (l : List Nat) :
    ∀ {h : Heap} (cost : List ℚ), AllShiftable E h rs → (∀ i ∈ l, 1 ≤ i ∧ i + 1 < (h.core.route r).stops.length) →
      ∃ h', oneShiftLoop E k r l cost h = (.ok (), h') ∧ AllShiftable E h' rs := by
  induction l with
  | nil => exact fun _ f _ => ⟨_, rfl, f⟩
  | cons i l ih =>
    intro h cost f hi
    obtain ⟨cost', h1, e1, f1⟩ := oneShiftAt_returns hE k f hr (hi i (by simp)).1 (hi i (by simp)).2 cost
    have st := oneShiftAt_step (f.each r hr).wf (hi i (by simp)).1 (hi i (by simp)).2 e1
    obtain ⟨h2, e2, f2⟩ := ih cost' f1 fun j hj => by rw [st.shifted.stops.length_eq]; exact hi j (by simp [hj])
    refine ⟨h2, ?_, f2⟩
    show (oneShiftAt E k r i cost >>= fun c' => oneShiftLoop E k r l c') h = _
    rw [Py.bind_ok e1]
    exact e2

theorem oneShiftRoute_returns (hE : EnvOK E) (k : Objective) (f : AllShiftable E h rs) (hr : r ∈ rs) :
    ∃ h', oneShiftRoute E k r h = (.ok (), h') ∧ AllShiftable E h' rs := by
  obtain ⟨cost, h1, e1, f1⟩ := objective_returns k f hr
  have k1 : routeStops r h1 = (.ok (h1.core.route r).stops, h1) := rfl
  unfold oneShiftRoute
  rw [Py.bind_ok e1, Py.bind_ok k1]
  refine oneShiftLoop_returns hE k hr _ cost f1 fun i hi => ?_
  obtain ⟨j, hj, rfl⟩ := List.mem_map.1 hi
  rw [List.mem_range] at hj
  omega

theorem forEach_returns {g : Nat → M Unit} (hg : ∀ q ∈ rs, ∀ h, AllShiftable E h rs → ∃ h', g q h = (.ok (), h') ∧ AllShiftable E h' rs)
    (l : List Nat) : ∀ {h : Heap}, AllShiftable E h rs → (∀ q ∈ l, q ∈ rs) → ∃ h', Py.forEach l g h = (.ok (), h') ∧ AllShiftable E h' rs := by
  induction l with
  | nil => exact fun f _ => ⟨_, rfl, f⟩
  | cons q l ih =>
    intro h f hl
    obtain ⟨h1, e1, f1⟩ := hg q (hl q (by simp)) h f
    obtain ⟨h2, e2, f2⟩ := ih f1 fun x hx => hl x (by simp [hx])
    refine ⟨h2, ?_, f2⟩
    show (g q >>= fun _ => Py.forEach l g) h = _
    rw [Py.bind_ok e1]
    exact e2

theorem checkRoute_returns (f : AllShiftable E h rs) (hr : r ∈ rs) : ∃ h', checkRoute E r h = (.ok (), h') ∧ AllShiftable E h' rs := by
  obtain ⟨g, e, a⟩ := checkRoute_askable (f.each r hr).wf (f.each r hr).askable
  refine ⟨g, e, f.asked hr a ((Silent.checkRoute E r).ok e) (.inl ?_)⟩
  have := KeepsLoads.checkRoute E r h
  rw [e] at this
  exact this

/-- The pass with the assertions before and after it. -/
theorem oneShift_checked_returns (hE : EnvOK E) (k : Objective) (f : AllShiftable E h rs) :
    ∃ h', improveInPlace E (oneShift E k) rs h = (.ok rs, h') ∧ AllShiftable E h' rs := by
  obtain ⟨h1, e1, f1⟩ := forEach_returns (g := checkRoute E) (fun q hq h f => checkRoute_returns f hq) rs f fun _ hq => hq
  obtain ⟨h2, e2, f2⟩ := forEach_returns (g := oneShiftRoute E k) (fun q hq h f => oneShiftRoute_returns hE k f hq) rs f1 fun _ hq => hq
  obtain ⟨h3, e3, f3⟩ := forEach_returns (g := checkRoute E) (fun q hq h f => checkRoute_returns f hq) rs f2 fun _ hq => hq
  refine ⟨h3, ?_, f3⟩
  unfold improveInPlace
  rw [Py.bind_ok e1]
  have e2' : oneShift E k rs h1 = (.ok rs, h2) := by
    unfold oneShift
    rw [Py.bind_ok e2]
    rfl
  rw [Py.bind_ok e2', Py.bind_ok e3]
  rfl

end

end Jinete
