import Verif.Props.Removal
import Verif.Props.Waiting
import Verif.Spec.Whole

/-!
# C134: some of the trips of a route

Whoever can serve the trips of a route can serve any selection of them: the visits of the others are left out.
-/

set_option autoImplicit false

namespace Jinete

variable {E : Env}

/-- Only selected trips are served at a visit. -/
def keeps (K : Nat → Bool) (v : Visit) : Bool := (v.picks ++ v.drops).all K

/-- The times of the visits that serve selected trips only. -/
def keptTimes (K : Nat → Bool) (l : List Visit) (ts : List Tm) : List Tm :=
  ((l.zip ts).filter fun a => keeps K a.1).map Prod.snd

theorem filter_split {α : Type} (p : α → Bool) : ∀ (l : List α) (i : Nat) (v : α), (l.filter p)[i]? = some v →
    ∃ a b, l = a ++ v :: b ∧ p v = true ∧ (a.filter p).length = i
  | [], i, v, h => by simp at h
  | w :: l, i, v, h => by
    by_cases hw : p w = true
    · rw [List.filter_cons_of_pos hw] at h
      cases i with
      | zero =>
        simp only [List.getElem?_cons_zero, Option.some.injEq] at h
        subst h
        exact ⟨[], l, rfl, hw, rfl⟩
      | succ i =>
        rw [List.getElem?_cons_succ] at h
        obtain ⟨a, b, e, hv, hl⟩ := filter_split p l i v h
        exact ⟨w :: a, b, by rw [e]; rfl, hv, by rw [List.filter_cons_of_pos hw, List.length_cons, hl]⟩
    · rw [List.filter_cons_of_neg hw] at h
      obtain ⟨a, b, e, hv, hl⟩ := filter_split p l i v h
      exact ⟨w :: a, b, by rw [e]; rfl, hv, by rw [List.filter_cons_of_neg hw, hl]⟩

theorem drives_filter (hE : EnvOK E) {ps : List Pos} (tri : NoShortcut E ps) (K : Nat → Bool) :
    ∀ {l : List Visit} {ts : List Tm} {t t' : ℚ} {p p' : Pos}, p ∈ ps → (∀ v ∈ l, v.pos ∈ ps) →
      (∀ q ∈ ps, t' + E.metric p' q ≤ t + E.metric p q) → Drives E t p l ts → Drives E t' p' (l.filter (keeps K)) (keptTimes K l ts)
  | [], [], _, _, _, _, _, _, _, _ => trivial
  | v :: l, x :: ts, t, t', p, p', hp, hl, hq, h => by
    obtain ⟨⟨h1, h2, h3, h4⟩, hd⟩ := h
    have hv := hl v (by simp)
    have hl' : ∀ w ∈ l, w.pos ∈ ps := fun w hw => hl w (by simp [hw])
    unfold keptTimes
    by_cases hk : keeps K v = true
    · rw [List.zip_cons_cons, List.filter_cons_of_pos hk, List.filter_cons_of_pos (by exact hk), List.map_cons]
      exact ⟨⟨(hq v.pos hv).trans h1, h2, h3, h4⟩, drives_filter hE tri K hv hl' (fun _ _ => le_rfl) hd⟩
    · rw [List.zip_cons_cons, List.filter_cons_of_neg hk, List.filter_cons_of_neg (by exact hk)]
      refine drives_filter hE tri K hv hl' (fun q hq' => ?_) hd
      have a1 := hq q hq'
      have a2 := tri p hp v.pos hv q hq'
      have a3 := loadTime_nonneg hE v
      linarith

theorem kept_length {K : Nat → Bool} {l : List Visit} {ts : List Tm} (hl : ts.length = l.length) :
    ((l.zip ts).filter fun a => keeps K a.1).map Prod.fst = l.filter (keeps K) := by
  have := List.filter_map (f := Prod.fst) (p := keeps K) (l := l.zip ts)
  rw [List.map_fst_zip (by omega)] at this
  exact this.symm

theorem keeps_of_mem {l : List Visit} (hone : ∀ v ∈ l, v.picks.length + v.drops.length ≤ 1) {K : Nat → Bool} :
    ∀ w ∈ l, ∀ t, t ∈ w.picks ++ w.drops → K t = true → keeps K w = true := by
  intro w hw t ht hk
  have h1 := hone w hw
  rw [← List.length_append] at h1
  unfold keeps
  rw [List.all_eq_true]
  intro t' ht'
  obtain ⟨a, ha⟩ := List.length_eq_one_iff.1 (le_antisymm h1 (List.length_pos_of_mem ht))
  rw [ha] at ht ht'
  rw [List.mem_singleton.1 ht', ← List.mem_singleton.1 ht]
  exact hk

theorem itinOK_filter {l : List Visit} (hi : ItinOK l) (hone : ∀ v ∈ l, v.picks.length + v.drops.length ≤ 1) (K : Nat → Bool) :
    ItinOK (l.filter (keeps K)) := by
  have kept := keeps_of_mem hone (K := K)
  have split : ∀ (a : List Visit) (v : Visit) (b : List Visit), l.filter (keeps K) = a ++ v :: b → ∃ a' b', l = a' ++ v :: b' ∧ keeps K v = true ∧
      a = a'.filter (keeps K) ∧ b = b'.filter (keeps K) := by
    intro a v b e
    obtain ⟨a', b', e', hv, hl⟩ := filter_split (keeps K) l a.length v (by rw [e]; simp)
    refine ⟨a', b', e', hv, ?_⟩
    rw [e', List.filter_append, List.filter_cons_of_pos hv] at e
    have := List.append_inj e hl
    exact ⟨this.1.symm, (List.cons.inj this.2).2.symm⟩
  have hK : ∀ v, keeps K v = true → ∀ t, t ∈ v.picks ++ v.drops → K t = true := fun v hv t ht => (List.all_eq_true.1 hv) t ht
  refine ⟨hi.picks.sublist (List.filter_sublist.flatMap _), hi.drops.sublist (List.filter_sublist.flatMap _), ?_, ?_⟩
  · intro a v b e t ht
    obtain ⟨a', b', e', hv, rfl, rfl⟩ := split a v b e
    obtain ⟨w, hw, htw⟩ := List.mem_flatMap.1 (hi.dropAfter a' v b' e' t ht)
    exact List.mem_flatMap.2 ⟨w, List.mem_filter.2 ⟨hw, kept w (by rw [e']; simp [hw]) t (by simp [htw]) (hK v hv t (by simp [ht]))⟩, htw⟩
  · intro a v b e t ht
    obtain ⟨a', b', e', hv, rfl, rfl⟩ := split a v b e
    obtain ⟨w, hw, htw⟩ := List.mem_flatMap.1 (hi.pickBefore a' v b' e' t ht)
    exact List.mem_flatMap.2 ⟨w, List.mem_filter.2 ⟨hw, kept w (by rw [e']; simp [hw]) t (by simp [htw]) (hK v hv t (by simp [ht]))⟩, htw⟩

/-- With fewer trips there is less on board. -/
theorem load_filter (hE : EnvOK E) {a b : List Visit} (hi : ItinOK (a ++ b)) (hone : ∀ v ∈ a ++ b, v.picks.length + v.drops.length ≤ 1)
    (K : Nat → Bool) : loadAfter E 0 (a.filter (keeps K)) ≤ loadAfter E 0 a := by
  have hi' := itinOK_filter hi hone K
  rw [List.filter_append] at hi'
  rw [hi.load_prefix, hi'.load_prefix]
  have same : ((a.filter (keeps K)).flatMap Visit.picks).filter (fun t => !((a.filter (keeps K)).flatMap Visit.drops).contains t) =
      ((a.filter (keeps K)).flatMap Visit.picks).filter (fun t => !(a.flatMap Visit.drops).contains t) := by
    apply List.filter_congr
    intro t ht
    congr 1
    obtain ⟨v, hv, htv⟩ := List.mem_flatMap.1 ht
    have hk := (List.all_eq_true.1 (List.mem_filter.1 hv).2) t (by simp [htv])
    rw [Bool.eq_iff_iff, List.contains_iff_mem, List.contains_iff_mem]
    constructor
    · intro h
      obtain ⟨w, hw, htw⟩ := List.mem_flatMap.1 h
      exact List.mem_flatMap.2 ⟨w, (List.mem_filter.1 hw).1, htw⟩
    · intro h
      obtain ⟨w, hw, htw⟩ := List.mem_flatMap.1 h
      exact List.mem_flatMap.2 ⟨w, List.mem_filter.2 ⟨hw, keeps_of_mem hone w (by simp [hw]) t (by simp [htw]) hk⟩, htw⟩
  rw [same]
  unfold tripsCapacity
  refine List.Sublist.sum_le_sum (((List.filter_sublist.flatMap _).filter _).map _) ?_
  intro x hx
  obtain ⟨t, _, rfl⟩ := List.mem_map.1 hx
  exact hE.capacity t

/-- A feasible timing of the visits, restricted to those of selected trips, is feasible. -/
theorem FeasibleTiming.subset (hE : EnvOK E) {veh : Vehicle} {l : List Visit} {ts : List Tm} (hi : ItinOK l)
    (hone : ∀ v ∈ l, v.picks.length + v.drops.length ≤ 1) (hfirst : ∀ v ∈ l.head?, v.picks = [] ∧ v.drops = [])
    (hlast : ∀ v ∈ l.getLast?, v.picks = [] ∧ v.drops = []) (tri : NoShortcut E (veh.origin.position :: l.map Visit.pos))
    (h : FeasibleTiming E veh l ts) (K : Nat → Bool) : FeasibleTiming E veh (l.filter (keeps K)) (keptTimes K l ts) := by
  have hl := drives_length h.drives
  have hfst := kept_length (K := K) hl
  have free : ∀ v : Visit, v.picks = [] ∧ v.drops = [] → keeps K v = true := fun v hv => by simp [keeps, hv.1, hv.2]
  have hd : Drives E veh.origin.earliest veh.origin.position (l.filter (keeps K)) (keptTimes K l ts) :=
    drives_filter hE tri K (by simp) (fun v hv => by simp; exact .inr ⟨v, hv, rfl⟩) (fun _ _ => le_rfl) h.drives
  have head : (l.filter (keeps K)).head? = l.head? ∧ (keptTimes K l ts).head? = ts.head? := by
    unfold keptTimes
    cases l with
    | nil => cases ts with
      | nil => exact ⟨rfl, rfl⟩
      | cons x ts => simp at hl
    | cons v l => cases ts with
      | nil => simp at hl
      | cons x ts =>
        have hk := free v (hfirst v rfl)
        rw [List.zip_cons_cons, List.filter_cons_of_pos hk, List.filter_cons_of_pos (by exact hk)]
        exact ⟨rfl, rfl⟩
  have last : (l.filter (keeps K)).getLast? = l.getLast? ∧ (keptTimes K l ts).getLast? = ts.getLast? := by
    unfold keptTimes
    rcases List.eq_nil_or_concat l with rfl | ⟨l, v, rfl⟩
    · cases ts with
      | nil => exact ⟨rfl, rfl⟩
      | cons x ts => simp at hl
    · rcases List.eq_nil_or_concat ts with rfl | ⟨ts, x, rfl⟩
      · simp at hl
      · have hk := free v (hlast v (by simp))
        simp only [List.concat_eq_append, List.length_append, List.length_cons, List.length_nil] at hl ⊢
        rw [List.zip_append (by omega), List.filter_append, List.filter_append]
        simp [hk]
  refine ⟨hd, by rw [head.1]; exact h.startPos, by rw [last.1]; exact h.endPos, by rw [last.2]; exact h.endTime,
    by rw [head.2, last.2]; exact h.duration, ?_⟩
  have place : ∀ (i : Nat) (v : Visit) (x : Tm) (q : ℚ), (l.filter (keeps K))[i]? = some v → (keptTimes K l ts)[i]? = some x →
      (loads E 0 (l.filter (keeps K)))[i]? = some q → ∃ (k : Nat) (q' : ℚ), l[k]? = some v ∧ ts[k]? = some x ∧ (loads E 0 l)[k]? = some q' ∧ q ≤ q' := by
    intro i v x q hv hx hq
    have hz : ((l.zip ts).filter fun a => keeps K a.1)[i]? = some (v, x) := by
      rw [← hfst, List.getElem?_map] at hv
      unfold keptTimes at hx
      rw [List.getElem?_map] at hx
      obtain ⟨z, hz, hzv⟩ := Option.map_eq_some_iff.1 hv
      rw [hz] at hx ⊢
      simp only [Option.map_some, Option.some.injEq] at hx
      rw [← hzv, ← hx]
    obtain ⟨a, b, e, hk, hai⟩ := filter_split _ _ _ _ hz
    have e1 : l = a.map Prod.fst ++ v :: b.map Prod.fst := by
      have := congrArg (List.map Prod.fst) e
      rw [List.map_fst_zip (by omega)] at this
      simpa using this
    have e2 : ts = a.map Prod.snd ++ x :: b.map Prod.snd := by
      have := congrArg (List.map Prod.snd) e
      rw [List.map_snd_zip (by omega)] at this
      simpa using this
    refine ⟨a.length, loadAfter E 0 (a.map Prod.fst ++ [v]), ?_, ?_, ?_, ?_⟩
    · rw [e1]; simp
    · rw [e2]; simp
    · have := loads_at (E := E) 0 (a.map Prod.fst) (b.map Prod.fst) v
      rw [← e1] at this
      simpa using this
    · have e3 : l.filter (keeps K) = (a.map Prod.fst).filter (keeps K) ++ v :: (b.map Prod.fst).filter (keeps K) := by
        rw [e1, List.filter_append, List.filter_cons_of_pos hk]
      have hai' : ((a.map Prod.fst).filter (keeps K)).length = i := by
        rw [List.filter_map, List.length_map]; exact hai
      rw [e3, ← hai', loads_at, Option.some.injEq] at hq
      rw [← hq]
      have e4 : l = (a.map Prod.fst ++ [v]) ++ b.map Prod.fst := by rw [e1]; simp
      have := load_filter hE (e4 ▸ hi) (e4 ▸ hone) K
      rwa [List.filter_append, List.filter_cons_of_pos hk, List.filter_nil] at this
  intro i j v w x y q q' t hv hw hx hy hq hq' ht ht'
  obtain ⟨k, r, a1, a2, a3, a4⟩ := place i v x q hv hx hq
  obtain ⟨k', r', b1, b2, b3, b4⟩ := place j w y q' hw hy hq'
  have ok := h.trips k k' v w x y r r' t a1 b1 a2 b2 a3 b3 ht ht'
  exact ⟨ok.pickEarliest, ok.pickLatest, ok.dropEarliest, ok.dropLatest, a4.trans ok.pickLoad, b4.trans ok.dropLoad, ok.ride⟩

/-- The requested starts play no part in a feasible timing. -/
theorem drives_duty : ∀ {l l' : List Visit} {ts : List Tm} {t : ℚ} {p : Pos}, l.map Visit.duty = l'.map Visit.duty → Drives E t p l ts →
    Drives E t p l' ts
  | [], [], _, _, _, _, h => h
  | _ :: _, _ :: _, [], _, _, _, h => h
  | v :: l, w :: l', x :: ts, t, p, e, h => by
    simp only [List.map_cons, List.cons.injEq] at e
    obtain ⟨e0, e⟩ := e
    have e1 : v.pos = w.pos := congrArg Duty.pos e0
    have e2 : v.picks = w.picks := congrArg Duty.picks e0
    have e3 : v.drops = w.drops := congrArg Duty.drops e0
    obtain ⟨⟨h1, h2, h3, h4⟩, hd⟩ := h
    refine ⟨⟨e1 ▸ h1, h2, ?_, ?_⟩, e1 ▸ drives_duty e hd⟩
    · unfold Visit.earliest at h3 ⊢; rw [← e2, ← e3]; exact h3
    · unfold Visit.loadTime at h4 ⊢; rw [← e2, ← e3]; exact h4

theorem FeasibleTiming.duty {veh : Vehicle} {l l' : List Visit} {ts : List Tm} (e : l.map Visit.duty = l'.map Visit.duty)
    (h : FeasibleTiming E veh l ts) : FeasibleTiming E veh l' ts := by
  have pos : ∀ l : List Visit, l.map Visit.pos = (l.map Visit.duty).map Duty.pos := fun l => by rw [List.map_map]; rfl
  have epos : l.map Visit.pos = l'.map Visit.pos := by rw [pos, pos, e]
  refine ⟨drives_duty e h.drives, ?_, ?_, h.endTime, h.duration, ?_⟩
  · rw [← List.head?_map, ← epos, List.head?_map]; exact h.startPos
  · rw [← List.getLast?_map, ← epos, List.getLast?_map]; exact h.endPos
  · have there : ∀ (i : Nat) (v : Visit), l'[i]? = some v → ∃ w, l[i]? = some w ∧ w.picks = v.picks ∧ w.drops = v.drops := by
      intro i v hv
      have h1 : (l.map Visit.duty)[i]? = some v.duty := by rw [e, List.getElem?_map, hv]; rfl
      rw [List.getElem?_map] at h1
      obtain ⟨w, hw, hd⟩ := Option.map_eq_some_iff.1 h1
      exact ⟨w, hw, congrArg Duty.picks hd, congrArg Duty.drops hd⟩
    intro i j v w x y q q' t hv hw hx hy hq hq' ht ht'
    obtain ⟨v', hv', e1, _⟩ := there i v hv
    obtain ⟨w', hw', _, e2⟩ := there j w hw
    rw [← loads_duty _ _ _ e 0] at hq hq'
    exact h.trips i j v' w' x y q q' t hv' hw' hx hy hq hq' (by rw [e1]; exact ht) (by rw [e2]; exact ht')

/-! ## C134 -/

/-- **C134.** If no detour among the places of a route saves time, then any selection of its trips can be served by its vehicle with the
other visits left out: every feasible timing of the route, restricted to the remaining visits, is feasible; with ride limits, shift
limits and requested starts or without. -/
theorem C134_some_of_the_trips (hE : EnvOK E) (c : Core) (r : Nat) (hw : WellFormed c r) (hs : SingleVisits (duties c r))
    (tri : NoShortcut E ((E.vehicle (c.route r).vehicle).origin.position :: (itinerary c r).map Visit.pos)) (ts : List Tm)
    (h : FeasibleTiming E (E.vehicle (c.route r).vehicle) (itinerary c r) ts) (K : Nat → Bool) :
    FeasibleTiming E (E.vehicle (c.route r).vehicle) ((itinerary c r).filter (keeps K)) (keptTimes K (itinerary c r) ts) ∧
    (∀ t, t ∈ ((itinerary c r).filter (keeps K)).flatMap Visit.picks ↔ t ∈ tripsOf c r ∧ K t = true) := by
  have hone : ∀ v ∈ itinerary c r, v.picks.length + v.drops.length ≤ 1 := fun v hv => hs.1 v.duty (List.mem_map_of_mem hv)
  refine ⟨h.subset hE hw.itinOK hone ?_ ?_ tri K, ?_⟩
  · intro v hv
    unfold itinerary at hv
    rw [List.head?_map] at hv
    obtain ⟨s, hs, rfl⟩ := Option.map_eq_some_iff.1 hv
    obtain ⟨h1, h2⟩ := hw.depot s hs
    simp [visitOf, h1, h2]
  · intro v hv
    refine hs.2 v.duty ?_
    unfold duties
    rw [List.getLast?_map, show (itinerary c r).getLast? = some v from hv]
    rfl
  · intro t
    unfold tripsOf
    constructor
    · intro ht
      obtain ⟨v, hv, htv⟩ := List.mem_flatMap.1 ht
      obtain ⟨hv, hk⟩ := List.mem_filter.1 hv
      exact ⟨List.mem_flatMap.2 ⟨v, hv, htv⟩, List.all_eq_true.1 hk t (by simp [htv])⟩
    · rintro ⟨ht, hk⟩
      obtain ⟨v, hv, htv⟩ := List.mem_flatMap.1 ht
      exact List.mem_flatMap.2 ⟨v, List.mem_filter.2 ⟨hv, keeps_of_mem hone v hv t (by simp [htv]) hk⟩, htv⟩

/-- What vehicle `v` does if it serves trip `t` only. -/
def alone (E : Env) (v t : Nat) : List Visit :=
  [⟨(E.vehicle v).origin.position, none, [], []⟩, ⟨(E.trip t).origin.position, none, [t], []⟩,
    ⟨(E.trip t).destination.position, none, [], [t]⟩, ⟨(E.vehicle v).destination.position, none, [], []⟩]

theorem alone_duties {c : Core} {r t : Nat} (hw : WellFormed c r) (hs : SingleVisits (duties c r))
    (hp : Proper E (c.route r).vehicle (duties c r)) (ht : t ∈ tripsOf c r) :
    ((itinerary c r).filter (keeps fun k => decide (k = t))).map Visit.duty = (alone E (c.route r).vehicle t).map Visit.duty := by
  obtain ⟨p, u, d, pre, mid, suf, e, hpre, hsuf, hpu, hpd, hpt, hout, _, _⟩ := hw.trip_stops ht hs
  obtain ⟨inner, eD, hin⟩ := hp
  let κ : Duty → Bool := fun x => (x.picks ++ x.drops).all fun k => decide (k = t)
  let δ : Nat → Duty := fun s => (visitOf c s).duty
  have hfil : ((itinerary c r).filter (keeps fun k => decide (k = t))).map Visit.duty = (duties c r).filter κ := by
    unfold duties
    rw [List.filter_map]
    rfl
  rw [hfil]
  obtain ⟨p0, pre, rfl⟩ := List.exists_cons_of_ne_nil hpre
  obtain ⟨suf, z, rfl⟩ : ∃ l z, suf = l ++ [z] := ⟨suf.dropLast, suf.getLast hsuf, (List.dropLast_append_getLast hsuf).symm⟩
  have eD' : duties c r = δ p0 :: ((pre.map δ ++ δ u :: (mid.map δ ++ δ d :: suf.map δ)) ++ [δ z]) := by
    simp [duties, itinerary, e, δ]
    rfl
  rw [eD'] at eD
  obtain ⟨e1, e2⟩ := List.cons.inj eD
  obtain ⟨e3, e4⟩ := List.append_inj' e2 rfl
  have e4 := (List.cons.inj e4).1
  have trip : ∀ s, stopTrips c s = (δ s).picks ++ (δ s).drops := fun s => by rw [stopTrips_visit]; rfl
  have inside : ∀ x ∈ pre ++ u :: (mid ++ d :: suf), ∃ k, δ x = pickDuty E k ∨ δ x = dropDuty E k := by
    intro x hx
    refine hin _ ?_
    rw [← e3]
    have := List.mem_map_of_mem (f := δ) hx
    simpa using this
  have hu : δ u = pickDuty E t := by
    obtain ⟨k, hk | hk⟩ := inside u (by simp)
    · have : t ∈ (δ u).picks := by
        show t ∈ (c.stop u).pickups.map _
        exact List.mem_map.2 ⟨p, hpu, hpt⟩
      rw [hk] at this ⊢
      rw [List.mem_singleton.1 this]
    · have : t ∈ (δ u).picks := by
        show t ∈ (c.stop u).pickups.map _
        exact List.mem_map.2 ⟨p, hpu, hpt⟩
      rw [hk] at this
      cases this
  have hd : δ d = dropDuty E t := by
    obtain ⟨k, hk | hk⟩ := inside d (by simp)
    · have : t ∈ (δ d).drops := by
        show t ∈ (c.stop d).deliveries.map _
        exact List.mem_map.2 ⟨p, hpd, hpt⟩
      rw [hk] at this
      cases this
    · have : t ∈ (δ d).drops := by
        show t ∈ (c.stop d).deliveries.map _
        exact List.mem_map.2 ⟨p, hpd, hpt⟩
      rw [hk] at this ⊢
      rw [List.mem_singleton.1 this]
  have drop : ∀ l : List Nat, (∀ x ∈ l, x ∈ pre ++ u :: (mid ++ d :: suf) ∧ t ∉ stopTrips c x) → (l.map δ).filter κ = [] := by
    intro l hl
    rw [List.filter_eq_nil_iff]
    intro y hy
    obtain ⟨x, hx, rfl⟩ := List.mem_map.1 hy
    obtain ⟨h1, h2⟩ := hl x hx
    rw [trip] at h2
    obtain ⟨k, hk | hk⟩ := inside x h1
    · rw [hk] at h2 ⊢
      simp [pickDuty, κ] at h2 ⊢
      exact fun h => h2 h.symm
    · rw [hk] at h2 ⊢
      simp [dropDuty, κ] at h2 ⊢
      exact fun h => h2 h.symm
  rw [eD', e1, e4, hu, hd]
  rw [List.filter_cons_of_pos (by simp [κ]), List.filter_append, List.filter_append, List.filter_cons_of_pos (by simp [κ, pickDuty]),
    List.filter_append, List.filter_cons_of_pos (by simp [κ, dropDuty]), drop pre (fun x hx => ⟨by simp [hx], hout x (by simp [hx])⟩),
    drop mid (fun x hx => ⟨by simp [hx], hout x (by simp [hx])⟩), drop suf (fun x hx => ⟨by simp [hx], hout x (by simp [hx])⟩)]
  simp [κ, alone, Visit.duty, pickDuty, dropDuty]

/-- **C134**, a single trip: if a vehicle serves a trip on a route that can be driven, it can serve the trip alone. -/
theorem C134_alone (hE : EnvOK E) (c : Core) (r t : Nat) (hw : WellFormed c r) (hp : Proper E (c.route r).vehicle (duties c r))
    (tri : NoShortcut E ((E.vehicle (c.route r).vehicle).origin.position :: (itinerary c r).map Visit.pos)) (ts : List Tm)
    (h : FeasibleTiming E (E.vehicle (c.route r).vehicle) (itinerary c r) ts) (ht : t ∈ tripsOf c r) :
    ∃ ts', FeasibleTiming E (E.vehicle (c.route r).vehicle) (alone E (c.route r).vehicle t) ts' := by
  have hs : SingleVisits (duties c r) := by
    obtain ⟨inner, e, hin⟩ := hp
    rw [e]
    constructor
    · intro d hd
      simp only [List.mem_cons, List.mem_append, List.not_mem_nil, or_false] at hd
      rcases hd with rfl | hd | rfl
      · simp
      · obtain ⟨k, rfl | rfl⟩ := hin d hd <;> simp [pickDuty, dropDuty]
      · simp
    · intro d hd
      rw [← List.cons_append] at hd
      simp only [List.getLast?_append, List.getLast?_singleton, Option.some_or, Option.mem_def, Option.some.injEq] at hd
      subst hd
      exact ⟨rfl, rfl⟩
  exact ⟨_, ((C134_some_of_the_trips hE c r hw hs tri ts h _).1).duty (alone_duties hw hs hp ht)⟩

/-- **C134**, what the insertion strategy says about empty vehicles: if it rejects a trip for a vehicle without any trips, then the
vehicle serves the trip on no route that can be driven, in whatever state and at whatever times. Without limits on rides and on the
duration of tours, for a vehicle without requested starts. -/
theorem C134_rejected_alone (hE : EnvOK E) (hx : ∀ t, (E.trip t).timeout = .inf) (h h' : Heap) (r t : Nat) (hr : Reach E h)
    (hrn : r < h.core.nRoute) (hlim : (E.vehicle (h.core.route r).vehicle).timeout = .inf)
    (hempty : itinerary h.core r = [⟨(E.vehicle (h.core.route r).vehicle).origin.position, none, [], []⟩,
      ⟨(E.vehicle (h.core.route r).vehicle).destination.position, none, [], []⟩])
    (e : compute E true r [t] 0 1 h = (.ok [], h')) (c : Core) (q : Nat) (hw : WellFormed c q)
    (hv : (c.route q).vehicle = (h.core.route r).vehicle) (hp : Proper E (c.route q).vehicle (duties c q))
    (tri : NoShortcut E ((E.vehicle (c.route q).vehicle).origin.position :: (itinerary c q).map Visit.pos)) (ts : List Tm)
    (hf : FeasibleTiming E (E.vehicle (c.route q).vehicle) (itinerary c q) ts) : t ∉ tripsOf c q := by
  intro ht
  obtain ⟨ts', h1⟩ := C134_alone hE c q t hw hp tri ts hf ht
  rw [hv] at h1
  have hfi : FeasibleItinerary E (E.vehicle (h.core.route r).vehicle) (alone E (h.core.route r).vehicle t) := by
    refine h1.itinerary hE (honours_unrequested ?_) (waitsOutside_unlimited hx hlim) ?_
    · intro v hv
      simp only [alone, List.mem_cons, List.not_mem_nil, or_false] at hv
      rcases hv with rfl | rfl | rfl | rfl <;> rfl
    · intro i j v w k hi hj hk hk'
      have : i = 1 := by
        rcases i with _ | _ | _ | _ | i <;> simp [alone] at hi <;> subst hi <;> simp at hk
        rfl
      have : j = 2 := by
        rcases j with _ | _ | _ | _ | j <;> simp [alone] at hj <;> subst hj <;> simp at hk'
        rfl
      omega
  have hlen : (h.core.route r).stops.length = 2 := by
    have := congrArg List.length hempty
    simpa [itinerary] using this
  obtain ⟨rs, h2, e2, hall⟩ := C64_rejections_partial hE hx h r 0 1 [t] hr hrn (by omega) (by omega)
    (by intro k _; simp [tripsOf, hempty]) (.inl (by simp))
  rw [e] at e2
  cases e2
  obtain ⟨_, _, h3⟩ := hall t (by simp)
  obtain ⟨q', hq', _⟩ := h3 (by rw [hempty]; simp) (by rw [hempty]; exact hfi)
  cases hq'

/-! ## Witnesses -/

/-- The crowded route of C133 with the first trip only, at the times of the full route. -/
example : FeasibleTiming crowdEnv (crowdEnv.vehicle 0) ((itinerary crowdHeap.core 3).filter (keeps fun k => decide (k = 0)))
      [⟨0, 0, 0⟩, ⟨18, 18, 19⟩, ⟨27, 27, 27⟩, ⟨35, 35, 35⟩] ∧
    ((itinerary crowdHeap.core 3).filter (keeps fun k => decide (k = 0))).map Visit.pos = [[0], [2], [8], [0]] := by
  have h := (C134_some_of_the_trips crowdEnv_ok crowdHeap.core 3 crowd_ok.2.1 crowd_single crowd_noShortcut _
    crowd_feasible.timing fun k => decide (k = 0)).1
  rw [crowd_driver] at h
  have e : keptTimes (fun k => decide (k = 0)) (itinerary crowdHeap.core 3) (vehicleTimetable crowdEnv (crowdEnv.vehicle 0)
      (itinerary crowdHeap.core 3)) = [⟨0, 0, 0⟩, ⟨18, 18, 19⟩, ⟨27, 27, 27⟩, ⟨35, 35, 35⟩] := by decide +kernel
  rw [e] at h
  exact ⟨h, by decide +kernel⟩

/-- The demo problem with a third trip that is too far away. -/
def awayEnv : Env :=
  { demoEnv with
    trip := fun t => if t = 2 then { origin := { position := [50], latest := .fin 40 }, destination := { position := [51], latest := .fin 100 } }
      else demoEnv.trip t }

theorem awayEnv_ok : EnvOK awayEnv where
  metric := demoEnv_ok.metric
  originDuration := by intro t; simp only [awayEnv, demoEnv]; split <;> [simp; (split <;> simp)]
  destinationDuration := by intro t; simp only [awayEnv, demoEnv]; split <;> [simp; (split <;> simp)]
  capacity := by intro t; simp only [awayEnv, demoEnv]; split <;> [simp; (split <;> simp)]

/-- One rejected insertion into an empty route shows that no route on the line serves the third trip. -/
example (c : Core) (q : Nat) (hw : WellFormed c q) (hv : (c.route q).vehicle = 0) (hp : Proper awayEnv 0 (duties c q))
    (tri : NoShortcut awayEnv ([0] :: (itinerary c q).map Visit.pos)) (ts : List Tm)
    (hf : FeasibleTiming awayEnv (awayEnv.vehicle 0) (itinerary c q) ts) : 2 ∉ tripsOf c q := by
  have e : newRoute awayEnv 0 Heap.empty = (.ok 0, (newRoute awayEnv 0 Heap.empty).2) := by rfl
  have e' : (compute awayEnv true 0 [2] 0 1 (newRoute awayEnv 0 Heap.empty).2).1 = .ok [] := by decide +kernel
  exact C134_rejected_alone awayEnv_ok (by intro t; simp only [awayEnv, demoEnv]; split <;> [rfl; (split <;> rfl)]) _ _ 0 2
    (Reach.newRoute .empty e) (by decide +kernel) (by decide +kernel) (by decide +kernel) (Prod.ext e' rfl) c q hw hv
    (by rw [hv]; exact hp) (by rw [hv]; exact tri) ts (by rw [hv]; exact hf)

end Jinete
