import Verif.Proofs.Ranked

/-!
# Accepting a route of the ranking
-/

set_option autoImplicit false

namespace Jinete

variable {S : Settings} {md : Mode}

/-- While the ranking is brought up to date after vehicle `w` was given trip `t` (planned trip `p`): `done` are the
attractive routes dealt with. -/
structure Updating (S : Settings) (md : Mode) (start a old : List Nat) (w t p : Nat) (R : Nat → Prop) (done : List Nat)
    (s : IterState) : Prop extends Base S md R s where
  attractive : s.attractive = some a
  within : ∀ q ∈ done, q ∈ a
  vehicles : ∀ x, x ∈ s.ranking.map Prod.fst ↔ x ∈ old ∨ ∃ q ∈ done, (s.heap.core.route q).vehicle = x
  nodup : (s.ranking.map Prod.fst).Nodup
  sub : ∀ x l r, (x, l) ∈ s.ranking → (x, r) ∈ s.container →
    ((∃ q ∈ done, (s.heap.core.route q).vehicle = x) → Sub S md R s.heap x r (· ∈ s.pending) l) ∧
    (x ≠ w → (¬ ∃ q ∈ done, (s.heap.core.route q).vehicle = x) →
      Sub S md R s.heap x r (fun y => y ∈ s.pending ∨ y = t) l)
  loaded : ∀ e ∈ s.container, routeLoaded s.heap.core e.2 = true → e.1 ∈ s.ranking.map Prod.fst
  judged : ∀ e ∈ s.container, e.2 ∈ start ∨ s.heap.rfeas e.2 = some true
  planned : ∃ r, (w, r) ∈ s.container ∧ p ∈ routePlannedTrips s.heap.core r
  trip : (s.heap.core.pt p).trip = t
  vehicle : (s.heap.core.pt p).vehicle = w
  gone : t ∉ s.pending

variable {start a old : List Nat} {w t p : Nat} {R : Nat → Prop} {done : List Nat} {s : IterState}

theorem Updating.free (u : Updating S md start a old w t p R done s) (hc : Clean S) {x r : Nat} (hx : x ≠ w)
    (hr : (x, r) ∈ s.container) : t ∉ tripsOf s.heap.core r := by
  obtain ⟨r', h1, h2⟩ := u.planned
  refine u.toBase.apart hc h1 hr (Ne.symm hx) ?_
  rw [tripsOf_eq]
  exact List.mem_map.2 ⟨p, h2, u.trip⟩

/-- The two ways of replacing the sub-ranking of the vehicle of `q`. -/
theorem Updating.set (hc : Clean S) {R' : Nat → Prop} {s' : IterState} {q v r0 : Nat} {l : List Nat} (u : Updating S md start a old w t p R done s)
    (g : Grew S md R R' v s s') (hq : q ∈ a) (hqv : (s.heap.core.route q).vehicle = v) (hv : (v, r0) ∈ s.container)
    (hl : Sub S md R' s'.heap v r0 (· ∈ s'.pending) l) :
    Updating S md start a old w t p R' (done ++ [q]) { s' with ranking := dictSet s'.ranking v l } := by
  have b' := u.toBase.grew g
  have hqR := (u.attr a u.attractive q hq).1
  have hq' : (s'.heap.core.route q).vehicle = v := by rw [g.same.route q hqR]; exact hqv
  have hold : ∀ x y, x ∈ a → ((s'.heap.core.route x).vehicle = y ↔ (s.heap.core.route x).vehicle = y) := by
    intro x y hx
    rw [g.same.route x (u.attr a u.attractive x hx).1]
  have hdone : ∀ x, (∃ y ∈ done ++ [q], (s'.heap.core.route y).vehicle = x) ↔
      (∃ y ∈ done, (s.heap.core.route y).vehicle = x) ∨ x = v := by
    intro x
    constructor
    · rintro ⟨y, hy, e⟩
      rcases List.mem_append.1 hy with hy | hy
      · exact .inl ⟨y, hy, (hold y x (u.within y hy)).1 e⟩
      · have : y = q := by simpa using hy
        rw [this, hq'] at e
        exact .inr e.symm
    · rintro (⟨y, hy, e⟩ | rfl)
      · exact ⟨y, by simp [hy], (hold y x (u.within y hy)).2 e⟩
      · exact ⟨q, by simp, hq'⟩
  have hkeys : ∀ x, x ∈ (dictSet s'.ranking v l).map Prod.fst ↔ x = v ∨ x ∈ s.ranking.map Prod.fst := by
    intro x
    rw [dictSet_keys, g.iter.ranking]
  obtain ⟨rw', hrw, hpw⟩ := u.planned
  have hrwR := (u.routes _ hrw).1
  have hpt : s'.heap.core.pt p = s.heap.core.pt p := g.same.planned_pt hrwR hpw
  refine ⟨⟨b'.inv, b'.routes, b'.keys, b'.trips, b'.attr⟩, by show s'.attractive = _; rw [g.iter.attractive, u.attractive], ?_,
    ?_, dictSet_nodup (by rw [g.iter.ranking]; exact u.nodup), ?_, ?_, ?_, ?_, ?_, ?_, ?_⟩
  · intro x hx
    rcases List.mem_append.1 hx with hx | hx
    · exact u.within x hx
    · have : x = q := by simpa using hx
      rw [this]; exact hq
  · intro x
    show x ∈ (dictSet s'.ranking v l).map Prod.fst ↔ _ ∨ ∃ y ∈ done ++ [q], (s'.heap.core.route y).vehicle = x
    rw [hkeys, hdone, u.vehicles x, or_comm, or_assoc]
  · intro x l' r hxl hxr
    change (x, l') ∈ dictSet s'.ranking v l at hxl
    change (x, r) ∈ s'.container at hxr
    show ((∃ y ∈ done ++ [q], (s'.heap.core.route y).vehicle = x) → Sub S md R' s'.heap x r (· ∈ s'.pending) l') ∧
      (x ≠ w → (¬ ∃ y ∈ done ++ [q], (s'.heap.core.route y).vehicle = x) →
        Sub S md R' s'.heap x r (fun y => y ∈ s'.pending ∨ y = t) l')
    rw [hdone]
    rcases dictSet_mem hxl with e | ⟨hne, hxl⟩
    · cases e
      have : r = r0 := mem_unique (b'.keys_nodup hc) hxr (by rw [g.iter.container]; exact hv)
      rw [this]
      exact ⟨fun _ => hl, fun _ hn => (hn (.inr rfl)).elim⟩
    · rw [g.iter.ranking] at hxl
      rw [g.iter.container] at hxr
      obtain ⟨k1, k2⟩ := u.sub x l' r hxl hxr
      rw [g.iter.pending]
      constructor
      · rintro (hd | hd)
        · exact (k1 hd).step (g.frame x hne) g.sub (u.routes _ hxr)
        · exact (hne hd).elim
      · intro hxw hn
        exact (k2 hxw fun h => hn (.inl h)).step (g.frame x hne) g.sub (u.routes _ hxr)
  · intro e he hload
    change e ∈ s'.container at he
    change routeLoaded s'.heap.core e.2 = true at hload
    show e.1 ∈ (dictSet s'.ranking v l).map Prod.fst
    rw [g.iter.container] at he
    rw [g.same.loaded (u.routes e he).1] at hload
    rw [hkeys]
    exact .inr (u.loaded e he hload)
  · intro e he
    change e ∈ s'.container at he
    rw [g.iter.container] at he
    rcases u.judged e he with h | h
    · exact .inl h
    · exact .inr (g.kept _ _ (u.routes e he).1 h)
  · exact ⟨rw', by show _ ∈ s'.container; rw [g.iter.container]; exact hrw,
      by show p ∈ routePlannedTrips s'.heap.core rw'; rw [g.same.planned hrwR]; exact hpw⟩
  · show (s'.heap.core.pt p).trip = t
    rw [hpt]; exact u.trip
  · show (s'.heap.core.pt p).vehicle = w
    rw [hpt]; exact u.vehicle
  · show t ∉ s'.pending
    rw [g.iter.pending]; exact u.gone

theorem Grew.refl {v : Nat} (inv : Inv S.env md R s.heap) : Grew S md R R v s s :=
  ⟨rfl, fun _ h => h, inv, SameT.refl _, fun _ _ _ h => h, fun _ _ => Frame.refl _, fun _ _ _ => rfl⟩

/-- One pass of the loop that brings the ranking up to date. -/
theorem updateVehicleRanking_meets (hE : EnvOK S.env) (hF : Fair S) (hc : Clean S)
    (hx : md = .exact → ∀ t, (S.env.trip t).timeout = .inf) (u : Updating S md start a old w t p R done s) {q : Nat} (hq : q ∈ a) :
    Meets (updateVehicleRanking S p (s.heap.core.route q).vehicle) s
      (fun _ s' => ∃ R', (∀ x, R x → R' x) ∧ SameT S.env R s.heap.core s'.heap.core ∧ s'.container = s.container ∧
        s'.pending = s.pending ∧ Updating S md start a old w t p R' (done ++ [q]) s' ∧ Short s s') S.strategy.Hangs := by
  obtain ⟨v, hv⟩ : ∃ v, (s.heap.core.route q).vehicle = v := ⟨_, rfl⟩
  rw [hv]
  obtain ⟨hqR, hqk⟩ := u.attr a u.attractive q hq
  rw [hv] at hqk
  obtain ⟨⟨v', r0⟩, hr0, rfl⟩ := List.mem_map.1 hqk
  have hlook := lookup_of_mem (u.toBase.keys_nodup hc) hr0
  have create : Meets (do
      let l ← createSubRanking S (← dictGet s.container v')
      Py.modify fun s => { s with ranking := dictSet s.ranking v' l } : IterM Unit) s
      (fun _ s' => ∃ R', (∀ x, R x → R' x) ∧ SameT S.env R s.heap.core s'.heap.core ∧ s'.container = s.container ∧
        s'.pending = s.pending ∧ Updating S md start a old w t p R' (done ++ [q]) s' ∧ Short s s') S.strategy.Hangs := by
    refine .bind (dictGet_meets hlook) ?_
    rintro _ _ ⟨rfl, rfl⟩
    refine .bind (createSubRanking_base hE hF hc hx u.toBase hr0) ?_
    rintro l s' ⟨R', g, hl⟩
    exact .modify_last ⟨R', g.sub, g.same, g.iter.container, g.iter.pending, u.set hc g hq hv hr0 hl, g.short⟩
  unfold updateVehicleRanking
  refine .read ?_
  cases hk : s.ranking.lookup v' with
  | none => exact create
  | some l =>
    by_cases hw : v' = (s.heap.core.pt p).vehicle
    · simp only [if_pos hw]
      exact create
    · simp only [if_neg hw]
      rw [u.vehicle] at hw
      obtain ⟨k1, k2⟩ := u.sub v' l r0 (mem_of_lookup hk) hr0
      have hfree := u.free hc hw hr0
      have hsub : Sub S md R s.heap v' r0 (· ∈ s.pending) (l.filter fun q => t ∉ routeTrips s.heap.core q) := by
        by_cases hd : ∃ q ∈ done, (s.heap.core.route q).vehicle = v'
        · exact (k1 hd).filter (fun x => ⟨fun h => ⟨h, fun e => u.gone (e ▸ h)⟩, fun h => h.1⟩) hfree
        · refine (k2 hw hd).filter (fun x => ⟨fun h => ⟨.inl h, fun e => u.gone (e ▸ h)⟩, fun h => ?_⟩) hfree
          rcases h with ⟨h | h, hne⟩
          · exact h
          · exact (hne h).elim
      refine .modify_last ⟨R, fun _ h => h, SameT.refl _, rfl, rfl, ?_, fun _ _ _ => rfl⟩
      rw [u.trip]
      exact u.set hc (Grew.refl u.inv) hq hv hr0 hsub

/-- Bringing the ranking up to date. -/
theorem updateRanking_meets (hE : EnvOK S.env) (hF : Fair S) (hc : Clean S)
    (hx : md = .exact → ∀ t, (S.env.trip t).timeout = .inf) (u : Updating S md start a old w t p R [] s)
    (ha : ∀ x, x ∈ old ↔ ∃ r ∈ a, (s.heap.core.route r).vehicle = x) :
    Meets (updateRanking S p) s (fun _ s' => ∃ R', (∀ x, R x → R' x) ∧ SameT S.env R s.heap.core s'.heap.core ∧
      s'.container = s.container ∧ s'.pending = s.pending ∧ Ranked S md start R' s' ∧ Short s s' ∧
      ((∀ r ∈ a, routeLoaded s.heap.core r = false) → ∃ a', s'.attractive = some a' ∧ Idle s'.heap.core s'.container a'))
      S.strategy.Hangs := by
  unfold updateRanking
  refine .bind (attractiveRoutes_meets hF) ?_
  rintro a1 s1 ⟨h1, h2, h3, _, _, h6, h7⟩
  have h3 := h3 a u.attractive
  refine .bind (ordered_meets hF) ?_
  rintro a2 s2 ⟨hp, h2'⟩
  have hs2 : s2 = { s with attractive := some a1, clock := s2.clock } := by rw [h2', h1]
  have u2 : Updating S md start a1 old w t p R [] s2 := by
    rw [hs2]
    refine ⟨⟨u.inv, u.routes, u.keys, u.trips, ?_⟩, rfl, by simp, by simpa using u.vehicles, u.nodup, ?_, u.loaded, u.judged,
      u.planned, u.trip, u.vehicle, u.gone⟩
    · intro a' e r hr
      cases e
      rcases h2 r hr with ⟨a0, e0, hr⟩ | hr
      · exact u.attr a0 e0 r hr
      · obtain ⟨e, he, rfl⟩ := List.mem_map.1 hr
        obtain ⟨k1, k2⟩ := u.routes e he
        exact ⟨k1, List.mem_map.2 ⟨e, he, k2.symm⟩⟩
    · intro x l r hl hr
      exact u.sub x l r hl hr
  refine (Meets.forEach (s := s2) (l := a2) (fun done s' => ∃ R', (∀ x, R x → R' x) ∧
    SameT S.env R s.heap.core s'.heap.core ∧ s'.container = s.container ∧ s'.pending = s.pending ∧
    Updating S md start a1 old w t p R' done s' ∧ Short s s') ?_ ?_).mono ?_
  · exact ⟨R, fun _ h => h, by rw [hs2]; exact SameT.refl _, by rw [hs2], by rw [hs2], u2, fun _ _ _ => by rw [hs2]⟩
  · rintro done q s3 hq ⟨R3, hsub, same, hc3, hp3, u3, sh3⟩
    refine .read ?_
    refine (updateVehicleRanking_meets hE hF hc hx u3 (hp.mem_iff.1 hq)).mono ?_
    rintro _ s4 ⟨R4, k1, k2, k3, k4, u4, sh4⟩
    exact ⟨R4, fun x h => k1 x (hsub x h), same.trans (k2.subset hsub), k3.trans hc3, k4.trans hp3, u4,
      sh3.trans sh4 hc3 fun e he => same.route _ (u.routes e he).1⟩
  · rintro _ s' ⟨R', hsub, same, hc', hp', u', sh'⟩
    have hall : ∀ x, x ∈ s'.ranking.map Prod.fst ↔ ∃ r ∈ a1, (s'.heap.core.route r).vehicle = x := by
      intro x
      rw [u'.vehicles x]
      constructor
      · rintro (h | ⟨q, hq, e⟩)
        · obtain ⟨r, hr, e⟩ := (ha x).1 h
          exact ⟨r, h3 r hr, by rw [same.route r (u.attr a u.attractive r hr).1]; exact e⟩
        · exact ⟨q, hp.mem_iff.1 hq, e⟩
      · rintro ⟨r, hr, e⟩
        exact .inr ⟨r, hp.mem_iff.2 hr, e⟩
    refine ⟨R', hsub, same, hc', hp', ⟨u'.toBase, ⟨a1, u'.attractive, hall⟩, u'.nodup, ?_, u'.loaded, u'.judged⟩, sh', fun hun => ⟨a1, u'.attractive, ?_⟩⟩
    · intro x l r hl hr
      refine (u'.sub x l r hl hr).1 ?_
      obtain ⟨q, hq, e⟩ := (hall x).1 (List.mem_map.2 ⟨_, hl, rfl⟩)
      exact ⟨q, hp.mem_iff.2 hq, e⟩
    · have hun1 : ∀ r ∈ a1, routeLoaded s.heap.core r = false := fun r hr =>
        (h6 a u.attractive r hr).elim (hun r) And.right
      rw [hc']
      refine (h7 hun1).same same (fun r hr => ?_) fun e he => (u.routes e he).1
      rcases h6 a u.attractive r hr with hr | ⟨hr, _⟩
      · exact (u.attr a u.attractive r hr).1
      · obtain ⟨e, he, rfl⟩ := List.mem_map.1 hr
        exact (u.routes e he).1

/-- What accepting a route changes. -/
structure Accepted (S : Settings) (s s' : IterState) (w r t : Nat) : Prop where
  pending : s'.pending = s.pending.erase t
  mem : t ∈ s.pending
  container : s'.container = dictSet s.container w r

/-- Accepting a candidate of the ranking is bringing the ranking up to date for one planned trip. -/
theorem setRoute_run (hc : Clean S) (k : Ranked S md start R s) {l : List Nat} {r : Nat}
    (hl : (w, l) ∈ s.ranking) (hr : r ∈ l) (hf : s.heap.rfeas r = some true) :
    ∃ a t p, t ∈ s.pending ∧ (∀ x, x ∈ s.ranking.map Prod.fst ↔ ∃ r ∈ a, (s.heap.core.route r).vehicle = x) ∧
      Updating S md start a (s.ranking.map Prod.fst) w t p R []
        { s with container := dictSet s.container w r, pending := s.pending.erase t } ∧
      ∀ S', setRoute (markRanked S') r s =
        updateRanking S' p { s with container := dictSet s.container w r, pending := s.pending.erase t } := by
  obtain ⟨a, ha, hveh⟩ := k.vehicles
  have hwk : w ∈ s.ranking.map Prod.fst := List.mem_map.2 ⟨_, hl, rfl⟩
  obtain ⟨q, hq, hqw⟩ := (hveh w).1 hwk
  have hwc := (k.attr a ha q hq).2
  rw [hqw] at hwc
  obtain ⟨⟨w', r0⟩, hr0, rfl⟩ := List.mem_map.1 hwc
  change (w', l) ∈ s.ranking at hl
  change w' ∈ _ at hwk
  have sub := k.sub w' l r0 hl hr0
  have cand := sub.cand r hr
  obtain ⟨t, i, j, htp, hij, hj, hd⟩ := cand.duties
  have hperm := tripsOf_withTrip hij hd
  have ht0 := k.toBase.pending_free hc hr0 htp
  change t ∉ tripsOf s.heap.core r0 at ht0
  have hnr0 : (tripsOf s.heap.core r0).Nodup := by
    have := (List.nodup_append.1 (k.toBase.all_nodup hc)).2.1
    obtain ⟨x, y, e⟩ := List.append_of_mem hr0
    rw [e, List.flatMap_append, List.flatMap_cons] at this
    exact (List.nodup_append.1 (List.nodup_append.1 this).2.1).1
  have hnr : (tripsOf s.heap.core r).Nodup := hperm.nodup_iff.2 (List.nodup_cons.2 ⟨ht0, hnr0⟩)
  have htr : t ∈ tripsOf s.heap.core r := hperm.mem_iff.2 (by simp)
  rw [tripsOf_eq] at htr
  obtain ⟨p, hp, hpt⟩ := List.mem_map.1 htr
  have hpv := cand.owner p hp (by rw [hpt]; exact ht0)
  have hpt : (s.heap.core.pt p).trip = t := hpt
  obtain ⟨x, y, hsplit⟩ := List.append_of_mem hp
  have hother : ∀ z ∈ x ++ y, (s.heap.core.pt z).trip ∈ routeTrips s.heap.core r0 := by
    intro z hz
    have hz' : z ∈ routePlannedTrips s.heap.core r := by
      rw [hsplit]
      rcases List.mem_append.1 hz with h | h
      · exact List.mem_append_left _ h
      · exact List.mem_append_right _ (List.mem_cons_of_mem _ h)
    have h1 : (s.heap.core.pt z).trip ∈ tripsOf s.heap.core r := by
      rw [tripsOf_eq]; exact List.mem_map.2 ⟨z, hz', rfl⟩
    rcases List.mem_cons.1 (hperm.mem_iff.1 h1) with h | h
    · exfalso
      rw [tripsOf_eq, routeTrips, hsplit] at hnr
      simp only [List.map_append, List.map_cons] at hnr
      have hn := List.nodup_append.1 hnr
      rcases List.mem_append.1 hz with hz | hz
      · exact hn.2.2 _ (List.mem_map.2 ⟨z, hz, rfl⟩) _ (List.mem_cons_self ..) (h.trans hpt.symm)
      · exact (List.nodup_cons.1 hn.2.1).1 (List.mem_map.2 ⟨z, hz, h.trans hpt.symm⟩)
    · rw [tripsOf_eq] at h; exact h
  have hpnr : (s.heap.core.pt p).trip ∉ routeTrips s.heap.core r0 := by rw [hpt, ← tripsOf_eq]; exact ht0
  have hrv : (s.heap.core.route r).vehicle = w' := cand.vehicle
  obtain ⟨A, B, eA, eB⟩ := dictSet_split (k.toBase.keys_nodup hc) hr0 r
  have hpn := k.toBase.pending_nodup hc
  have u : Updating S md start a (s.ranking.map Prod.fst) w' t p R []
      { s with container := dictSet s.container w' r, pending := s.pending.erase t } := by
    have hcm : ∀ e ∈ dictSet s.container w' r, e = (w', r) ∨ e ∈ s.container := fun e he =>
      (dictSet_mem he).imp id And.right
    refine ⟨⟨k.inv, ?_, ?_, ?_, ?_⟩, ha, by simp, by simp, k.nodup, ?_, ?_, ?_, ?_, hpt, hpv, ?_⟩
    · intro e he
      rcases hcm e he with rfl | he
      · exact ⟨cand.mem, hrv⟩
      · exact k.routes e he
    · show ((dictSet s.container w' r).map Prod.fst).Perm S.fleet
      rw [dictSet_keys_mem (List.mem_map.2 ⟨_, hr0, rfl⟩)]; exact k.keys
    · show (s.pending.erase t ++ (dictSet s.container w' r).flatMap fun e => tripsOf s.heap.core e.2).Perm S.job
      have h1 := k.trips
      rw [eA, List.flatMap_append, List.flatMap_cons] at h1
      rw [eB, List.flatMap_append, List.flatMap_cons]
      refine List.Perm.trans ?_ h1
      rw [List.perm_iff_count]
      intro z
      have h2 := List.perm_iff_count.1 hperm z
      have h3 := List.perm_iff_count.1 (List.perm_cons_erase htp) z
      simp only [List.count_append, List.count_cons] at h2 h3 ⊢
      omega
    · intro a' e z hz
      obtain ⟨k1, k2⟩ := k.attr a' e z hz
      refine ⟨k1, ?_⟩
      show _ ∈ (dictSet s.container w' r).map Prod.fst
      rw [dictSet_keys_mem (List.mem_map.2 ⟨_, hr0, rfl⟩)]; exact k2
    · intro z l' r' hz hr'
      refine ⟨fun h => by simp at h, fun hne _ => ?_⟩
      rcases dictSet_mem hr' with e | ⟨_, hr'⟩
      · cases e; exact (hne rfl).elim
      · refine (k.sub z l' r' hz hr').congr fun y => ?_
        show y ∈ s.pending.erase t ∨ y = t ↔ y ∈ s.pending
        rw [hpn.mem_erase_iff]
        constructor
        · rintro (h | rfl)
          · exact h.2
          · exact htp
        · intro h
          by_cases e : y = t
          · exact .inr e
          · exact .inl ⟨e, h⟩
    · intro e he hload
      rcases hcm e he with rfl | he
      · exact hwk
      · exact k.loaded e he hload
    · intro e he
      rcases hcm e he with rfl | he
      · exact .inr hf
      · exact k.judged e he
    · exact ⟨r, dictSet_self, hp⟩
    · show t ∉ s.pending.erase t
      rw [hpn.mem_erase_iff]; simp
  refine ⟨a, t, p, htp, hveh, u, fun S' => ?_⟩
  unfold setRoute
  rw [Py.read_bind, hrv, Py.bind_ok (show dictGet s.container w' s = (.ok r0, s) by
    unfold dictGet; rw [lookup_of_mem (k.toBase.keys_nodup hc) hr0]; rfl), Py.modify_bind]
  rw [hsplit, forEach_single (fun z hz => if_pos (hother z (List.mem_append_left _ hz)))
    (fun z hz => if_pos (hother z (List.mem_append_right _ hz))), if_neg hpnr]
  unfold markRanked markTripDone
  rw [Py.read_bind, hpt, Py.bind_assoc_run, Py.read_bind, if_pos htp, Py.modify_bind]

/-- Accepting a candidate of the ranking. -/
theorem setRoute_meets (hE : EnvOK S.env) (hF : Fair S) (hc : Clean S)
    (hx : md = .exact → ∀ t, (S.env.trip t).timeout = .inf) (k : Ranked S md start R s) {l : List Nat} {r : Nat}
    (hl : (w, l) ∈ s.ranking) (hr : r ∈ l) (hf : s.heap.rfeas r = some true) :
    Meets (setRoute (markRanked S) r) s (fun _ s' => ∃ R' t, Accepted S s s' w r t ∧ (∀ x, R x → R' x) ∧
      SameT S.env R s.heap.core s'.heap.core ∧ Ranked S md start R' s' ∧ Short { s with container := dictSet s.container w r } s' ∧
      ((∀ a, s.attractive = some a → ∀ r ∈ a, routeLoaded s.heap.core r = false) →
        ∃ a', s'.attractive = some a' ∧ Idle s'.heap.core s'.container a')) S.strategy.Hangs := by
  obtain ⟨a, t, p, htp, hveh, u, e⟩ := setRoute_run hc k hl hr hf
  unfold Meets
  rw [e S]
  refine (updateRanking_meets hE hF hc hx u hveh).mono ?_
  rintro _ s' ⟨R', k1, k2, k3, k4, k5, k6, k7⟩
  exact ⟨R', t, ⟨k4, htp, k3⟩, k1, k2, k5, k6, fun h => k7 (h a u.attractive)⟩

end Jinete
