import Verif.Spec.Whole
import Verif.Props.Isolation
import Verif.Props.Search

/-!
# Plannings in the course of whole algorithms

What reallocation, insertion, comparing and logging keep about every planning that is around: `PlanInv`. It makes the
plannings on the heap results with values in the sense of `Valued`.
-/

set_option autoImplicit false

namespace Jinete

variable {E : Env} {fleet job : List Nat} {W : List Nat → Prop} {K : Nat → List Duty → Prop} {md : Mode}

/-- The routes `rs` are a planning: one sound route per vehicle of the fleet, with at most one trip per stop, serving trips
of the job at most once, each route empty or fine. `W` is about the trips served, `K` about the vehicle and the
duties of each route. -/
structure PlanInv (E : Env) (fleet job : List Nat) (W : List Nat → Prop) (K : Nat → List Duty → Prop) (md : Mode) (h : Heap) (rs : List Nat) : Prop where
  inv : Inv E md (· ∈ rs) h
  vehicles : (rs.map fun r => (h.core.route r).vehicle).Perm fleet
  trips : (rs.flatMap (tripsOf h.core)).Nodup
  job : ∀ t ∈ rs.flatMap (tripsOf h.core), t ∈ job
  work : W (rs.flatMap (tripsOf h.core))
  single : ∀ r ∈ rs, SingleVisits (duties h.core r)
  fits : ∀ r ∈ rs, Fine E md h.core r
  kept : ∀ r ∈ rs, K (h.core.route r).vehicle (duties h.core r)

namespace PlanInv

variable {h h' : Heap} {rs : List Nat}

theorem wf (p : PlanInv E fleet job W K md h rs) : ∀ r ∈ rs, WellFormed h.core r := p.inv.ok.wf

theorem sound (p : PlanInv E fleet job W K md h rs) : ∀ r ∈ rs, Sound E h r := fun _ hr => p.inv.sound hr

theorem ne_nil (p : PlanInv E fleet job W K md h rs) (hf : fleet ≠ []) : rs ≠ [] := by
  rintro rfl
  exact hf p.vehicles.symm.eq_nil

theorem growsV (p : PlanInv E fleet job W K md h rs) (g : GrowsV E h h') : PlanInv E fleet job W K md h' rs := by
  refine ⟨p.inv.growsV g, ?_, ?_, ?_, ?_, ?_, ?_, ?_⟩ <;> rw [g.core]
  exacts [p.vehicles, p.trips, p.job, p.work, p.single, p.fits, p.kept]

theorem same (p : PlanInv E fleet job W K md h rs) (b : Below h h') : SameCore (· ∈ rs) h.core h'.core := (b.keeps p.wf).core

theorem below (p : PlanInv E fleet job W K md h rs) (b : Below h h') : PlanInv E fleet job W K md h' rs := by
  have a := p.same b
  have hd : ∀ r ∈ rs, duties h'.core r = duties h.core r := fun r hr => a.duties hr
  have ht : rs.flatMap (tripsOf h'.core) = rs.flatMap (tripsOf h.core) :=
    List.flatMap_congr fun r hr => by rw [picks_duties, picks_duties, hd r hr]
  refine ⟨p.inv.keeps (b.keeps p.wf), ?_, ?_, ?_, ?_, ?_, ?_, ?_⟩
  · rw [List.map_congr_left fun r hr => by rw [a.route r hr]]; exact p.vehicles
  · rw [ht]; exact p.trips
  · rw [ht]; exact p.job
  · rw [ht]; exact p.work
  · intro r hr; rw [hd r hr]; exact p.single r hr
  · intro r hr; exact (p.fits r hr).same (SameT.of_core a p.wf) hr (p.wf r hr)
  · intro r hr; rw [hd r hr, a.route r hr]; exact p.kept r hr

theorem plan_below (p : PlanInv E fleet job W K md h rs) (b : Below h h') : rs.map (planOf E h'.core) = rs.map (planOf E h.core) := by
  have a := p.same b
  refine List.map_congr_left fun r hr => ?_
  unfold planOf
  rw [a.route r hr, a.itinerary hr]

/-- A planning of the whole as one of sound routes. -/
theorem onePerVehicle (p : PlanInv E fleet job W K md h rs) (hf : fleet.Nodup) : OnePerVehicle E h rs :=
  ⟨p.sound, p.vehicles.nodup_iff.2 hf, p.trips⟩

end PlanInv

/-- The routes `rs0`, well formed, are as they were in `c0`. -/
def RoutesKept (c0 : Core) (rs0 : List Nat) (c : Core) : Prop :=
  ∀ r ∈ rs0, WellFormed c r ∧ (c.route r).vehicle = (c0.route r).vehicle ∧ itinerary c r = itinerary c0 r

theorem RoutesKept.below {c0 : Core} {rs0 : List Nat} {h h' : Heap} (a : RoutesKept c0 rs0 h.core) (b : Below h h') : RoutesKept c0 rs0 h'.core := by
  have k := (b.keeps (R := (· ∈ rs0)) fun r hr => (a r hr).1).core
  intro r hr
  obtain ⟨h1, h2, h3⟩ := a r hr
  exact ⟨k.wf hr h1, by rw [k.route r hr, h2], by rw [k.itinerary hr, h3]⟩

/-- Plannings as results with values; the routes `rs0` stay as they were in `c0`. -/
def plannedValued (E : Env) (fleet job : List Nat) (W : List Nat → Prop) (K : Nat → List Duty → Prop) (md : Mode) (k : Objective) (c0 : Core)
    (rs0 : List Nat) : Valued Heap (List Nat) (resultValue E k) where
  Good h := NoDangling h.core ∧ RoutesKept c0 rs0 h.core
  Alive h rs := PlanInv E fleet job W K md h rs
  val h rs := planningValue E k (rs.map (planOf E h.core))
  eval h rs hg hp := by
    obtain ⟨h', e, g⟩ := planningValue_reads (E := E) k hp.wf h rfl (Sound.coh hp.sound)
    exact ⟨h', e, by rw [g.core]; exact hg, fun x hx => ⟨hx.growsV g.toV, by rw [g.core]⟩⟩

variable {k : Objective} {c0 : Core} {rs0 : List Nat}

local notation "V" => plannedValued E fleet job W K md k c0 rs0

theorem follows_of_growsV {h h' : Heap} (hg : (V).Good h) (g : GrowsV E h h') : (V).Follows h h' :=
  ⟨show NoDangling h'.core ∧ RoutesKept c0 rs0 h'.core by rw [g.core]; exact hg, fun _ hx => ⟨hx.growsV g, by
    show planningValue E k _ = planningValue E k _
    rw [g.core]⟩⟩

theorem follows_of_untouched {h h' : Heap} (hg : (V).Good h) (nd : NoDangling h'.core) (u : Untouched h h') : (V).Follows h h' :=
  ⟨⟨nd, hg.2.below u.below⟩, fun _ hx => ⟨hx.below u.below, by
    show planningValue E k _ = planningValue E k _
    rw [hx.plan_below u.below]⟩⟩

/-! ## Logging -/

theorem logResult_run (hE : EnvOK E) (hf : fleet ≠ []) {h : Heap} {rs : List Nat} (p : PlanInv E fleet job W K md h rs) :
    ∃ h', logResult E k rs h = (.ok (), h') ∧ GrowsV E h h' := by
  obtain ⟨h1, e1, g1⟩ := planningFeasible_run hE (p.ne_nil hf) p.sound
  have p1 := p.growsV g1
  obtain ⟨h2, e2, g2⟩ := planningValue_reads (E := E) k p1.wf h1 rfl (Sound.coh p1.sound)
  refine ⟨h2, ?_, g1.trans g2.toV⟩
  have e2' : resultValue E k rs h1 = (.ok _, h2) := e2
  unfold logResult
  rw [Py.bind_ok e1, Py.bind_ok e2']
  rfl

/-! ## Reallocation -/

/-- What must hold of a property of duties for it to be kept by moving trips of the job around. -/
structure Movable (E : Env) (job : List Nat) (K : Nat → List Duty → Prop) : Prop where
  insert : ∀ v ds t i j, K v ds → t ∈ job → i < j → j < ds.length → K v (withTrip E t i j ds)
  remove : ∀ v ds t, K v ds → K v (withoutTrip t ds)

theorem movable_true : Movable E job fun _ _ => True := ⟨fun _ _ _ _ _ _ _ _ _ => trivial, fun _ _ _ _ => trivial⟩

/-- A route that meets the constraints, as verdicts. -/
theorem verdict_of_feasible {c : Core} {r : Nat} (hw : WellFormed c r)
    (hf : FeasibleItinerary E (E.vehicle (c.route r).vehicle) (itinerary c r)) : RouteVerdict E md c r true := by
  have h3 := (freshV_iff hw).2 hf
  unfold freshV at h3
  rw [Bool.and_eq_true, List.all_eq_true] at h3
  refine ⟨fun _ _ => endsV_of_vehV h3.1, fun _ p hp => ?_⟩
  have h2 := PtVerdict.self (E := E) c p
  rw [h3.2 p hp] at h2
  exact ⟨fun _ => h2.sound (by simp), fun _ => h2.full rfl⟩

theorem reallocationPass_run (hE : EnvOK E) (hx : md = .exact → ∀ t, (E.trip t).timeout = .inf) (hf : fleet ≠ []) (hfn : fleet.Nodup)
    (hW : ∀ l l', l.Perm l' → W l → W l') (hK : Movable E job K) {D : Heap → Draws} (hD : ∀ h, (D h).OK) {h : Heap} {rs : List Nat}
    (hg : (V).Good h) (p : PlanInv E fleet job W K md h rs) :
    ∃ l h', reallocationPass E k D rs h = (.ok l, h') ∧ (V).Follows h h' ∧ PlanInv E fleet job W K md h' l ∧ l ≠ rs ∧
      SameWork h.core rs h'.core l ∧ (∀ q ∈ l, h.core.nRoute ≤ q) := by
  have hv := p.vehicles.nodup_iff.2 hfn
  obtain ⟨l, h', e, t⟩ := improve_reallocation (k := k) hE hx p.inv (fun r hr => hr) hv p.trips p.single (hD h).order (hD h).pairs
  replace e := e (D h).pairs fun _ _ _ => rfl
  have iso : Isolated h (improveWith E (D h).order (reallocation E k (D h).pairs) rs h) :=
    C79_reallocation_isolated k _ (fun l r hr => ((hD h).order l).mem_iff.1 hr) hg.1 fun r hr => (p.wf r hr).exists_
  rw [e] at iso
  have hvl : (l.map fun r => (h'.core.route r).vehicle).Nodup := t.work.vehicles.nodup_iff.2 hv
  have hinj : ∀ q ∈ l, ∀ q' ∈ l, (h'.core.route q).vehicle = (h'.core.route q').vehicle → q = q' := fun q hq q' hq' he =>
    List.inj_on_of_nodup_map hvl hq hq' he
  refine ⟨l, h', e, follows_of_untouched hg iso.noDangling iso.untouched, ?_, ?_, t.work, t.fresh⟩
  · refine ⟨t.inv.subset fun q hq => .inr hq, t.work.vehicles.trans p.vehicles, t.work.trips.nodup_iff.2 p.trips,
      fun x hx => p.job x (t.work.trips.mem_iff.1 hx), hW _ _ t.work.trips.symm p.work, t.single, ?_, ?_⟩
    · intro q hq
      rcases t.feasible q hq with ⟨r, hr, rfl, a⟩ | h1 | h1
      · exact ((p.fits r hr).double (p.wf r hr)).same a rfl (double_wf (p.wf r hr))
      · exact .inr (verdict_of_feasible (t.inv.ok.wf q (.inr hq)) h1)
      · exact .inr h1
    · intro q hq
      have hmem : (h'.core.route q).vehicle ∈ rs.map fun r => (h.core.route r).vehicle :=
        t.work.vehicles.mem_iff.1 (List.mem_map.2 ⟨q, hq, rfl⟩)
      obtain ⟨r, hr, hrv⟩ := List.mem_map.1 hmem
      rcases t.outcome with ⟨h1, h2⟩ | ⟨_, o, d, x, i, j, m⟩
      · have := h2 r hr
        rw [hinj q hq _ (h1.mem_iff.2 (List.mem_map.2 ⟨r, hr, rfl⟩)) (by rw [this.1, hrv]), this.1, this.2]
        exact p.kept r hr
      · by_cases hro : r = o
        · obtain ⟨q', hq', v', d'⟩ := m.from_
          rw [hinj q hq q' hq' (by rw [v', ← hrv, hro]), v', d']
          exact hK.remove _ _ _ (p.kept o m.origin)
        · by_cases hrd : r = d
          · obtain ⟨q', hq', v', d'⟩ := m.to_
            rw [hinj q hq q' hq' (by rw [v', ← hrv, hrd]), v', d']
            exact hK.insert _ _ _ _ _ (p.kept d m.destination) (p.job x (List.mem_flatMap.2 ⟨o, m.origin, m.trip⟩)) m.order m.range
          · obtain ⟨q', hq', v', d'⟩ := m.rest r hr hro hrd
            rw [hinj q hq q' hq' (by rw [v', hrv]), v', d']
            exact p.kept r hr
  · rintro rfl
    obtain ⟨r, hr⟩ := List.exists_mem_of_ne_nil _ (p.ne_nil hf)
    have h1 := (p.wf r hr).exists_
    have h2 := t.fresh r hr
    omega

/-! ## Insertion -/

theorem Grown.picks {ds ds' : List Duty} (g : Grown E ds ds') : ∀ t ∈ ds.flatMap Duty.picks, t ∈ ds'.flatMap Duty.picks := by
  induction g with
  | refl => exact fun _ h => h
  | insert g hij hj ih =>
    intro t ht
    exact (withTrip_picks E hij).mem_iff.2 (List.mem_cons_of_mem _ (ih t ht))

theorem Grown.single {ds ds' : List Duty} (g : Grown E ds ds') (hs : SingleVisits ds) : SingleVisits ds' := by
  induction g with
  | refl => exact hs
  | insert g hij hj ih => exact withTrip_single ih hj

theorem Grown.kept {v : Nat} {ds ds' : List Duty} (g : Grown E ds ds') (hK : Movable E job K) (hs : K v ds)
    (hj : ∀ t ∈ ds'.flatMap Duty.picks, t ∈ job) : K v ds' := by
  induction g with
  | refl => exact hs
  | @insert ds1 t i j g hij hj' ih =>
    have hp := withTrip_picks E (t := t) (l := ds1) hij
    exact hK.insert _ _ _ _ _ (ih fun t ht => hj t (hp.mem_iff.2 (List.mem_cons_of_mem _ ht))) (hj _ (hp.mem_iff.2 (by simp))) hij hj'

/-- Duties that grew have more pickups, or are the same. -/
theorem Grown.length {ds ds' : List Duty} (g : Grown E ds ds') :
    ds' = ds ∨ (ds.flatMap Duty.picks).length < (ds'.flatMap Duty.picks).length := by
  induction g with
  | refl => exact .inl rfl
  | @insert ds1 t i j g hij hj ih =>
    right
    have := (withTrip_picks E (t := t) (l := ds1) hij).length_eq
    rw [this, List.length_cons]
    rcases ih with rfl | ih <;> omega

/-- The duties of a route that serves nothing. -/
def idleDuties (E : Env) (v : Nat) : List Duty :=
  [⟨(E.vehicle v).origin.position, [], []⟩, ⟨(E.vehicle v).destination.position, [], []⟩]

theorem PlanInv.start {S : Settings} (hS : S.Of E fleet job) {h : Heap} {rs : List Nat} (p : PlanInv E fleet job W K md h rs) :
    Startable S h rs := by
  obtain ⟨rfl, rfl, rfl, _, _⟩ := hS
  exact ⟨p.sound, p.vehicles, p.trips, p.job⟩

/-- What insertion does to a planning, per vehicle. -/
def PlanGrown (E : Env) (c : Core) (rs : List Nat) (c' : Core) (l : List Nat) : Prop :=
  ∀ q ∈ l, ∃ r ∈ rs, (c.route r).vehicle = (c'.route q).vehicle ∧ Grown E (duties c r) (duties c' q)

theorem insertionPlanning_run (hE : EnvOK E) (hx : md = .exact → ∀ t, (E.trip t).timeout = .inf) (hfn : fleet.Nodup) (hjn : job.Nodup)
    (hW : ∀ l, l.Nodup → (∀ t ∈ l, t ∈ job) → W l) (hK : Movable E job K) (hK0 : ∀ v ∈ fleet, K v (idleDuties E v))
    {S : Settings} (hS : S.Of E fleet job) {h : Heap} (hg : (V).Good h) {initial : Option (List Nat)}
    (hp : ∀ rs, initial = some rs → PlanInv E fleet job W K md h rs) (fuel : Nat) :
    (∃ l h', insertionPlanning S initial fuel h = (.ok l, h') ∧ (V).Follows h h' ∧ PlanInv E fleet job W K md h' l ∧
      ∀ rs, initial = some rs → PlanGrown E h.core rs h'.core l) ∨
    ∃ e h', insertionPlanning S initial fuel h = (.error e, h') ∧ (S.strategy.Hangs e ∨ e = .outOfFuel ∧ fuel ≤ job.length) := by
  have hstart : ∀ rs, initial = some rs → Startable S h rs := fun rs e => (hp rs e).start hS
  obtain ⟨rfl, rfl, rfl, hF, hn⟩ := hS
  have iso : Isolated h (insertionPlanning S initial fuel h) :=
    C80_insertion_isolated S (fun k l x hx => (hF.order k l).mem_iff.1 hx) initial fuel hg.1
      fun rs e r hr => ((hp rs e).wf r hr).exists_
  have m := insertionAlgorithm_meets (md := md) hE hF ⟨hfn, hjn⟩ hn hx (h0 := h) (initial := initial)
    (fun rs e => ⟨hstart rs e, (hp rs e).inv⟩) fuel
  unfold Meets at m
  have e : insertionPlanning S initial fuel h = ((insertionAlgorithm S initial fuel (.initial h)).1,
    (insertionAlgorithm S initial fuel (.initial h)).2.heap) := rfl
  rcases hr : insertionAlgorithm S initial fuel (.initial h) with ⟨er | l, s⟩
  · rw [hr] at m e
    exact .inr ⟨er, s.heap, e, m⟩
  · rw [hr] at m e
    obtain ⟨hperm, ⟨start, R, run⟩, _⟩ := m
    rw [e] at iso
    left
    have hmem : ∀ q ∈ l, ∃ v, (v, q) ∈ s.container := fun q hq => by
      obtain ⟨⟨v, q'⟩, h1, rfl⟩ := List.mem_map.1 (hperm.mem_iff.1 hq)
      exact ⟨v, h1⟩
    have hveh : (l.map fun r => (s.heap.core.route r).vehicle).Perm S.fleet := by
      refine (hperm.map _).trans ?_
      have e1 : (s.container.map Prod.snd).map (fun r => (s.heap.core.route r).vehicle) = s.container.map Prod.fst := by
        rw [List.map_map]
        exact List.map_congr_left fun e he => (run.routes e he).2
      rw [e1]
      exact run.keys
    have htr : (l.flatMap (tripsOf s.heap.core)).Perm (s.container.flatMap fun e => tripsOf s.heap.core e.2) := by
      have := hperm.flatMap_right (tripsOf s.heap.core)
      rwa [List.flatMap_map] at this
    have hnod : (l.flatMap (tripsOf s.heap.core)).Nodup :=
      htr.nodup_iff.2 (List.nodup_append.1 (run.toBase.all_nodup ⟨hfn, hjn⟩)).2.1
    have hjob : ∀ t ∈ l.flatMap (tripsOf s.heap.core), t ∈ S.job := fun t ht =>
      run.trips.mem_iff.1 (List.mem_append_right _ (htr.mem_iff.1 ht))
    have hfine : StartsFine S md h initial := fun rs e r hr => (hp rs e).fits r hr
    have hgrown : ∀ q ∈ l, ∃ ds, StartDuties S h initial (s.heap.core.route q).vehicle ds ∧ Grown S.env ds (duties s.heap.core q) := by
      intro q hq
      obtain ⟨v, hv⟩ := hmem q hq
      have := run.grown _ hv
      rwa [← (run.routes _ hv).2] at this
    have hstartK : ∀ q ∈ l, ∀ ds, StartDuties S h initial (s.heap.core.route q).vehicle ds → SingleVisits ds ∧ K (s.heap.core.route q).vehicle ds := by
      intro q hq ds hd
      cases initial with
      | none =>
        rw [show ds = idleDuties S.env _ from hd]
        exact ⟨⟨by simp [idleDuties], by simp [idleDuties]⟩, hK0 _ (hveh.mem_iff.1 (List.mem_map.2 ⟨q, hq, rfl⟩))⟩
      | some rs =>
        obtain ⟨r, hr, hrv, rfl⟩ := hd
        exact ⟨(hp rs rfl).single r hr, hrv ▸ (hp rs rfl).kept r hr⟩
    have hjq : ∀ q ∈ l, ∀ t ∈ (duties s.heap.core q).flatMap Duty.picks, t ∈ S.job := fun q hq t ht =>
      hjob t (List.mem_flatMap.2 ⟨q, hq, by rw [picks_duties]; exact ht⟩)
    refine ⟨l, s.heap, e, follows_of_untouched hg iso.noDangling iso.untouched, ⟨?_, hveh, hnod, hjob, hW _ hnod hjob, ?_, ?_, ?_⟩, ?_⟩
    · refine run.inv.subset fun q hq => ?_
      obtain ⟨v, hv⟩ := hmem q hq
      exact (run.routes _ hv).1
    · intro q hq
      obtain ⟨ds, h1, h2⟩ := hgrown q hq
      exact h2.single (hstartK q hq ds h1).1
    · intro q hq
      obtain ⟨v, hv⟩ := hmem q hq
      rcases run.judged _ hv with h1 | h1
      · exact run.fine hfine q h1
      · exact .inr (run.inv.vd.route q (run.routes _ hv).1 true h1)
    · intro q hq
      obtain ⟨ds, h1, h2⟩ := hgrown q hq
      exact h2.kept hK (hstartK q hq ds h1).2 (hjq q hq)
    · rintro rs rfl q hq
      obtain ⟨ds, ⟨r, hr, hv, rfl⟩, h2⟩ := hgrown q hq
      exact ⟨r, hr, hv, h2⟩

/-! ## More trips, or the same planning -/

theorem map_perm_of_key {α β γ δ : Type} [DecidableEq γ] {l : List α} {l' : List β} {f : α → γ} {f' : β → γ} {g : α → δ} {g' : β → δ}
    (hp : (l.map f).Perm (l'.map f')) (h : ∀ a ∈ l, ∀ b ∈ l', f a = f' b → g a = g' b) : (l.map g).Perm (l'.map g') := by
  induction l generalizing l' with
  | nil =>
    have : l' = [] := by simpa using hp.symm.eq_nil
    subst this; exact .nil
  | cons a l ih =>
    obtain ⟨b, hb, e⟩ := List.mem_map.1 (hp.mem_iff.1 (by simp : f a ∈ (a :: l).map f))
    obtain ⟨s, t, rfl⟩ := List.append_of_mem hb
    have h1 : ((s ++ b :: t).map f').Perm (f' b :: (s ++ t).map f') := (List.perm_middle (a := b) (l₁ := s) (l₂ := t)).map f'
    have h2 : ((s ++ b :: t).map g').Perm (g' b :: (s ++ t).map g') := (List.perm_middle (a := b) (l₁ := s) (l₂ := t)).map g'
    rw [List.map_cons, ← e] at hp
    refine .trans ?_ h2.symm
    rw [List.map_cons, h a (by simp) b hb e.symm]
    exact .cons _ (ih (hp.trans h1).cons_inv fun x hx y hy => h x (by simp [hx]) y (by
      rcases List.mem_append.1 hy with hy | hy <;> simp [hy]))

/-- The routes of a planning that grew, in the order of the ones they grew from. -/
theorem PlanGrown.pairing {c c' : Core} {rs l : List Nat} (g : PlanGrown E c rs c' l)
    (h0 : (rs.map fun r => (c.route r).vehicle).Perm fleet) (h1 : (l.map fun r => (c'.route r).vehicle).Perm fleet) (hfn : fleet.Nodup) :
    ∃ ρ : Nat → Nat, rs.Perm (l.map ρ) ∧ ∀ q ∈ l, (c.route (ρ q)).vehicle = (c'.route q).vehicle ∧ Grown E (duties c (ρ q)) (duties c' q) := by
  choose! ρ h2 h3 h4 using g
  refine ⟨ρ, ?_, fun q hq => ⟨h3 q hq, h4 q hq⟩⟩
  have hv := h0.nodup_iff.2 hfn
  have := map_perm_of_key (l := rs) (l' := l.map ρ) (f := fun r => (c.route r).vehicle) (f' := fun r => (c.route r).vehicle) (g := id)
    (g' := id) (by
      have e1 : (l.map ρ).map (fun r => (c.route r).vehicle) = l.map fun q => (c'.route q).vehicle := by
        rw [List.map_map]
        exact List.map_congr_left fun q hq => h3 q hq
      rw [e1]
      exact h0.trans h1.symm) (by
      intro a ha b hb e
      obtain ⟨q, hq, rfl⟩ := List.mem_map.1 hb
      exact List.inj_on_of_nodup_map hv ha (h2 q hq) e)
  simpa using this

theorem routeValue_duties {veh : Vehicle} {l l' : List Visit} (h : l.map Visit.duty = l'.map Visit.duty) :
    routeValue E veh l .dialARide = routeValue E veh l' .dialARide := by
  have h1 : l.flatMap Visit.picks = l'.flatMap Visit.picks := by
    have := congrArg (List.flatMap Duty.picks) h
    rwa [List.flatMap_map, List.flatMap_map] at this
  have h2 : l.map Visit.pos = l'.map Visit.pos := by
    have := congrArg (List.map Duty.pos) h
    rwa [List.map_map, List.map_map] at this
  unfold routeValue
  rw [h1, h2]

/-- A planning that grew is not worse under the Dial-a-Ride objective. -/
theorem PlanGrown.not_worse {c c' : Core} {rs l : List Nat} (g : PlanGrown E c rs c' l)
    (h0 : (rs.map fun r => (c.route r).vehicle).Perm fleet) (h1 : (l.map fun r => (c'.route r).vehicle).Perm fleet) (hfn : fleet.Nodup) :
    planningValue E .dialARide (rs.map (planOf E c)) ≤ planningValue E .dialARide (l.map (planOf E c')) := by
  obtain ⟨ρ, hp, hq⟩ := g.pairing h0 h1 hfn
  rw [planningValue_perm (hp.map _), List.map_map]
  by_cases he : ∀ q ∈ l, duties c' q = duties c (ρ q)
  · refine le_of_eq ?_
    unfold planningValue
    rw [List.map_map, List.map_map]
    congr 1
    refine List.map_congr_left fun q hql => ?_
    simp only [Function.comp, planOf, (hq q hql).1]
    exact routeValue_duties (he q hql).symm
  · push Not at he
    obtain ⟨q, hql, hne⟩ := he
    have hlt : (l.map fun q => (((duties c (ρ q)).flatMap Duty.picks).length : ℚ)).sum <
        (l.map fun q => (((duties c' q).flatMap Duty.picks).length : ℚ)).sum := by
      refine List.sum_lt_sum _ _ (fun x hx => ?_) ⟨q, hql, ?_⟩
      · rcases (hq x hx).2.length with h | h
        · rw [h]
        · exact_mod_cast h.le
      · rcases (hq q hql).2.length with h | h
        · exact (hne h).elim
        · exact_mod_cast h
    refine le_of_lt ?_
    have e : ∀ (f : Nat → Vehicle × List Visit), planningValue E .dialARide (l.map f) =
        [(l.map fun q => (((f q).2.flatMap Visit.picks).length : ℚ)).sum,
         (l.map fun q => - tourLength E (f q).1.origin.position ((f q).2.map Visit.pos)).sum] := by
      intro f
      simp [planningValue, columnSums, Objective.dim, routeValue, List.map_map, Function.comp_def, List.range_succ]
    rw [e, e]
    refine List.Lex.rel ?_
    have e2 : ∀ c r, (itinerary c r).flatMap Visit.picks = (duties c r).flatMap Duty.picks := fun c r => picks_duties c r
    simp only [Function.comp, planOf, e2]
    exact hlt

end Jinete
