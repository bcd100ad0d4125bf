import Verif.Proofs.Ranking

/-!
# The invariant of the ranking iterator
-/

set_option autoImplicit false

namespace Jinete

variable {S : Settings} {md : Mode}

theorem ordered_meets (hF : Fair S) {l : List Nat} {s : IterState} {X : Err → Prop} :
    Meets (ordered S l) s (fun l' s' => l'.Perm l ∧ s' = { s with clock := s.clock + 1 }) X :=
  .bind (Q := fun _ s' => s' = { s with clock := s.clock + 1 }) (.tick rfl) fun k _ h => .pure ⟨hF.order k l, h⟩

theorem dictGet_meets {β : Type} {d : List (Nat × β)} {k : Nat} {v : β} (h : d.lookup k = some v) {s : IterState}
    {X : Err → Prop} : Meets (dictGet d k) s (fun x s' => x = v ∧ s' = s) X := by
  unfold dictGet; rw [h]; exact .pure ⟨rfl, rfl⟩

theorem forEach_pure {σ α : Type} {f : α → Py σ Unit} {l : List α} (h : ∀ x ∈ l, f x = pure ()) :
    Py.forEach l f = pure () := by
  induction l with
  | nil => rfl
  | cons x l ih =>
    show (f x >>= fun _ => Py.forEach l f) = _
    rw [h x (by simp), ih fun y hy => h y (by simp [hy])]
    rfl

/-- A loop with one effective pass. -/
theorem forEach_single {σ α : Type} {f : α → Py σ Unit} {a b : List α} {p : α} (ha : ∀ x ∈ a, f x = pure ())
    (hb : ∀ x ∈ b, f x = pure ()) : Py.forEach (a ++ p :: b) f = f p := by
  induction a with
  | nil =>
    show (f p >>= fun _ => Py.forEach b f) = _
    rw [forEach_pure hb]
    funext s
    rcases e : f p s with ⟨r, s'⟩
    cases r with
    | ok u => rw [Py.bind_ok e]; rfl
    | error x => rw [Py.bind_error e]
  | cons x a ih =>
    show (f x >>= fun _ => Py.forEach (a ++ p :: b) f) = _
    rw [ha x (by simp), ih fun y hy => ha y (by simp [hy])]
    rfl

/-- What both kinds of iterators keep. -/
structure Base (S : Settings) (md : Mode) (R : Nat → Prop) (s : IterState) : Prop where
  inv : Inv S.env md R s.heap
  routes : ∀ e ∈ s.container, R e.2 ∧ (s.heap.core.route e.2).vehicle = e.1
  keys : (s.container.map Prod.fst).Perm S.fleet
  trips : (s.pending ++ s.container.flatMap fun e => tripsOf s.heap.core e.2).Perm S.job
  attr : ∀ a, s.attractive = some a → ∀ r ∈ a, R r ∧ (s.heap.core.route r).vehicle ∈ s.container.map Prod.fst

theorem Base.accounts {R : Nat → Prop} {s : IterState} (b : Base S md R s) : Accounts S s :=
  ⟨b.keys, fun e he => (b.routes e he).2, fun e he => b.inv.ok.wf _ (b.routes e he).1, b.trips⟩

theorem Base.keys_nodup {R : Nat → Prop} {s : IterState} (b : Base S md R s) (hc : Clean S) :
    (s.container.map Prod.fst).Nodup := b.keys.nodup_iff.2 hc.fleet

theorem Base.all_nodup {R : Nat → Prop} {s : IterState} (b : Base S md R s) (hc : Clean S) :
    (s.pending ++ s.container.flatMap fun e => tripsOf s.heap.core e.2).Nodup := b.trips.nodup_iff.2 hc.job

theorem Base.pending_nodup {R : Nat → Prop} {s : IterState} (b : Base S md R s) (hc : Clean S) : s.pending.Nodup :=
  (List.nodup_append.1 (b.all_nodup hc)).1

theorem Base.pending_free {R : Nat → Prop} {s : IterState} (b : Base S md R s) (hc : Clean S) {e : Nat × Nat}
    (he : e ∈ s.container) {t : Nat} (ht : t ∈ s.pending) : t ∉ tripsOf s.heap.core e.2 := fun h =>
  (List.nodup_append.1 (b.all_nodup hc)).2.2 t ht t (List.mem_flatMap.2 ⟨e, he, h⟩) rfl

theorem Base.pending_length {R : Nat → Prop} {s : IterState} (b : Base S md R s) : s.pending.length ≤ S.job.length := by
  rw [← b.trips.length_eq, List.length_append]; omega

/-- Different vehicles serve different trips. -/
theorem Base.apart {R : Nat → Prop} {s : IterState} (b : Base S md R s) (hc : Clean S) {v w r q t : Nat}
    (hv : (v, r) ∈ s.container) (hw : (w, q) ∈ s.container) (hne : v ≠ w) (ht : t ∈ tripsOf s.heap.core r) :
    t ∉ tripsOf s.heap.core q := by
  have hn := (List.nodup_append.1 (b.all_nodup hc)).2.1
  intro hq
  obtain ⟨x, y, e⟩ := List.append_of_mem hv
  rw [e] at hn hw
  rw [List.flatMap_append, List.flatMap_cons] at hn
  have hd := List.nodup_append.1 hn
  have hd2 := List.nodup_append.1 hd.2.1
  rcases List.mem_append.1 hw with hw | hw
  · exact hd.2.2 t (List.mem_flatMap.2 ⟨_, hw, hq⟩) t (List.mem_append_left _ ht) rfl
  · rcases List.mem_cons.1 hw with hw | hw
    · cases hw; exact hne rfl
    · exact hd2.2.2 t ht t (List.mem_flatMap.2 ⟨_, hw, hq⟩) rfl

/-- Routes with nothing between their ends stay what they are, requested starts included. -/
def Short (s s' : IterState) : Prop :=
  ∀ e ∈ s.container, (s.heap.core.route e.2).stops.length = 2 → itinerary s'.heap.core e.2 = itinerary s.heap.core e.2

theorem Short.trans {s s' s'' : IterState} (a : Short s s') (b : Short s' s'') (hc : s'.container = s.container)
    (hr : ∀ e ∈ s.container, s'.heap.core.route e.2 = s.heap.core.route e.2) : Short s s'' := fun e he h2 => by
  rw [b e (by rw [hc]; exact he) (by rw [hr e he]; exact h2), a e he h2]

/-- Routes without trips are worth trying, one of them among the current ones if there is any. -/
def Idle (c : Core) (container : List (Nat × Nat)) (a : List Nat) : Prop :=
  (∀ r ∈ a, routeLoaded c r = false) ∧
  ((∃ e ∈ container, routeLoaded c e.2 = false) → ∃ e ∈ container, e.2 ∈ a ∧ routeLoaded c e.2 = false)

/-- What creating a sub-ranking of vehicle `v` leaves behind. -/
structure Grew (S : Settings) (md : Mode) (R R' : Nat → Prop) (v : Nat) (s s' : IterState) : Prop where
  iter : SameIter s s'
  sub : ∀ q, R q → R' q
  inv : Inv S.env md R' s'.heap
  same : SameT S.env R s.heap.core s'.heap.core
  kept : ∀ q b, R q → s.heap.rfeas q = some b → s'.heap.rfeas q = some b
  frame : ∀ w, w ≠ v → Frame S.env R w s.heap s'.heap
  short : Short s s'

theorem SameIter.container {s s' : IterState} (h : SameIter s s') : s'.container = s.container := by rw [h]
theorem SameIter.attractive {s s' : IterState} (h : SameIter s s') : s'.attractive = s.attractive := by rw [h]
theorem SameIter.pending {s s' : IterState} (h : SameIter s s') : s'.pending = s.pending := by rw [h]
theorem SameIter.ranking {s s' : IterState} (h : SameIter s s') : s'.ranking = s.ranking := by rw [h]

theorem Base.move {R R' : Nat → Prop} {s s' : IterState} (b : Base S md R s) (inv : Inv S.env md R' s'.heap)
    (hs : ∀ q, R q → R' q) (same : SameT S.env R s.heap.core s'.heap.core) (hc : s'.container = s.container)
    (ha : s'.attractive = s.attractive) (hp : s'.pending = s.pending) : Base S md R' s' where
  inv := inv
  routes e he := by
    rw [hc] at he
    obtain ⟨h1, h2⟩ := b.routes e he
    exact ⟨hs _ h1, by rw [same.route _ h1]; exact h2⟩
  keys := by rw [hc]; exact b.keys
  trips := by
    have : s'.container.flatMap (fun e => tripsOf s'.heap.core e.2) = s.container.flatMap fun e => tripsOf s.heap.core e.2 := by
      rw [hc]
      exact List.flatMap_congr fun e he => same.tripsOf (b.routes e he).1
    rw [hp, this]; exact b.trips
  attr a h r hr := by
    rw [ha] at h
    obtain ⟨h1, h2⟩ := b.attr a h r hr
    exact ⟨hs _ h1, by rw [same.route _ h1, hc]; exact h2⟩

theorem Base.grew {R R' : Nat → Prop} {v : Nat} {s s' : IterState} (b : Base S md R s) (g : Grew S md R R' v s s') :
    Base S md R' s' := b.move g.inv g.sub g.same g.iter.container g.iter.attractive g.iter.pending

theorem Base.growsV {R : Nat → Prop} {s s' : IterState} (b : Base S md R s) (g : GrowsV S.env s.heap s'.heap)
    (hi : SameIter s s') : Base S md R s' :=
  b.move (b.inv.growsV g) (fun _ h => h) (by rw [g.core]; exact SameT.refl _) hi.container hi.attractive hi.pending

/-- Creating the sub-ranking of the current route of a vehicle. -/
theorem createSubRanking_base (hE : EnvOK S.env) (hF : Fair S) (hc : Clean S)
    (hx : md = .exact → ∀ t, (S.env.trip t).timeout = .inf) {R : Nat → Prop} {s : IterState} (b : Base S md R s) {v r : Nat}
    (hv : (v, r) ∈ s.container) :
    Meets (createSubRanking S r) s (fun l s' => ∃ R', Grew S md R R' v s s' ∧ Sub S md R' s'.heap v r (· ∈ s'.pending) l)
      S.strategy.Hangs := by
  obtain ⟨hr, hv'⟩ := b.routes _ hv
  refine (createSubRanking_meets hE hF hx b.inv hr (fun t ht => b.pending_free hc hv ht) b.pending_length).mono ?_
  rintro l s' ⟨hi, R', h1, h2, h3, h4, h5, h6, h7⟩
  have hv'' : (s.heap.core.route r).vehicle = v := hv'
  rw [hv''] at h5 h6
  refine ⟨R', ⟨hi, h1, h2, h3, h4, h5, ?_⟩, by rw [hi.pending]; exact h6⟩
  intro e he hlen
  by_cases hev : e.1 = v
  · have : e.2 = r := mem_unique (b.keys_nodup hc) (show (v, e.2) ∈ s.container by rw [← hev]; exact he) hv
    rw [this] at hlen ⊢
    exact (h7 hlen).itinerary hr
  · exact (h5 e.1 hev).apart.itinerary (R := fun q => R q ∧ (s.heap.core.route q).vehicle = e.1) (b.routes e he)

/-- The routes worth trying. -/
theorem attractiveRoutes_meets (hF : Fair S) {s : IterState} {X : Err → Prop} :
    Meets (attractiveRoutes S) s (fun a s' => s' = { s with attractive := some a, clock := s'.clock } ∧
      (∀ r ∈ a, (∃ a0, s.attractive = some a0 ∧ r ∈ a0) ∨ r ∈ s.container.map Prod.snd) ∧
      (∀ a0, s.attractive = some a0 → ∀ r ∈ a0, r ∈ a) ∧
      (s.attractive = none → ∀ r ∈ s.container.map Prod.snd, routeLoaded s.heap.core r = true → r ∈ a) ∧
      (s.attractive = none → s.container ≠ [] → a ≠ []) ∧
      (∀ a0, s.attractive = some a0 → ∀ r ∈ a, r ∈ a0 ∨ r ∈ s.container.map Prod.snd ∧ routeLoaded s.heap.core r = false) ∧
      ((∀ r ∈ a, routeLoaded s.heap.core r = false) → Idle s.heap.core s.container a)) X := by
  unfold attractiveRoutes knownAttractive completeAttractive iterRoutes
  refine .bind (Q := fun (a : List Nat) (s' : IterState) => s' = { s with clock := s'.clock } ∧
      (∀ r ∈ a, (∃ a0, s.attractive = some a0 ∧ r ∈ a0) ∨ r ∈ s.container.map Prod.snd) ∧
      (∀ a0, s.attractive = some a0 → ∀ r ∈ a0, r ∈ a) ∧
      (s.attractive = none → ∀ r ∈ s.container.map Prod.snd, routeLoaded s.heap.core r = true → r ∈ a) ∧
      (∀ a0, s.attractive = some a0 → a = a0)) ?_ ?_
  · refine .read ?_
    cases ha : s.attractive with
    | some a => exact .pure ⟨by rw [← ha], fun r hr => .inl ⟨a, rfl, hr⟩, fun a0 h r hr => by cases h; exact hr, (fun h => nomatch h),
        fun a0 h => by cases h; rfl⟩
    | none =>
      refine .bind (.read (ordered_meets hF)) ?_
      rintro rs _ ⟨hp, rfl⟩
      refine .pure ⟨by rw [← ha], ?_, fun _ h => (nomatch h), ?_, fun _ h => nomatch h⟩
      · intro r hr
        exact .inr (hp.mem_iff.1 (List.mem_filter.1 hr).1)
      · intro _ r hr hl
        exact List.mem_filter.2 ⟨hp.mem_iff.2 hr, hl⟩
  rintro a s1 ⟨h1, h2, h3, h4, h5⟩
  refine .bind (Q := fun (a : List Nat) (s' : IterState) => s' = { s with clock := s'.clock } ∧
      (∀ r ∈ a, (∃ a0, s.attractive = some a0 ∧ r ∈ a0) ∨ r ∈ s.container.map Prod.snd) ∧
      (∀ a0, s.attractive = some a0 → ∀ r ∈ a0, r ∈ a) ∧
      (s.attractive = none → ∀ r ∈ s.container.map Prod.snd, routeLoaded s.heap.core r = true → r ∈ a) ∧
      (s.attractive = none → s.container ≠ [] → a ≠ []) ∧
      (∀ a0, s.attractive = some a0 → ∀ r ∈ a, r ∈ a0 ∨ r ∈ s.container.map Prod.snd ∧ routeLoaded s.heap.core r = false) ∧
      ((∀ r ∈ a, routeLoaded s.heap.core r = false) → Idle s.heap.core s.container a)) ?_ ?_
  · refine .read ?_
    have hh1 : s1.heap = s.heap := by rw [h1]
    rw [hh1]
    by_cases hany : a.any (routeLoaded s.heap.core) = true
    · rw [if_pos hany]
      refine .pure ⟨h1, h2, h3, h4, fun _ _ h0 => ?_, fun a0 h0 r hr => .inl (by rw [← h5 a0 h0]; exact hr), fun hun => ?_⟩
      · rw [h0] at hany; simp at hany
      · obtain ⟨r, hr, hl⟩ := List.any_eq_true.1 hany
        rw [hun r hr] at hl
        cases hl
    · rw [if_neg hany]
      refine .bind (.read (ordered_meets hF)) ?_
      rintro rs _ ⟨hp, rfl⟩
      have hcont : s1.container = s.container := by rw [h1]
      rw [hcont] at hp
      cases hf : rs.find? (fun r => !routeLoaded s.heap.core r) with
      | none =>
        refine .pure ⟨by rw [h1], h2, h3, h4, fun hn h0 ha => ?_, fun a0 h0 r hr => .inl (by rw [← h5 a0 h0]; exact hr),
          fun hun => ⟨hun, ?_⟩⟩
        · obtain ⟨e, he⟩ := List.exists_mem_of_ne_nil _ h0
          have hm : e.2 ∈ s.container.map Prod.snd := List.mem_map.2 ⟨e, he, rfl⟩
          have := List.find?_eq_none.1 hf e.2 (hp.mem_iff.2 hm)
          have hm' := h4 hn e.2 hm (by simpa using this)
          rw [ha] at hm'
          simp at hm'
        · rintro ⟨e, he, hl⟩
          have hm : e.2 ∈ s.container.map Prod.snd := List.mem_map.2 ⟨e, he, rfl⟩
          have := List.find?_eq_none.1 hf e.2 (hp.mem_iff.2 hm)
          rw [hl] at this
          simp at this
      | some r =>
        refine .pure ⟨by rw [h1], ?_, ?_, ?_, ?_, ?_, fun hun => ⟨hun, fun _ => ?_⟩⟩
        · intro q hq
          split at hq
          · exact h2 q hq
          · rcases List.mem_append.1 hq with hq | hq
            · exact h2 q hq
            · right
              have : q = r := by simpa using hq
              rw [this]
              exact hp.mem_iff.1 (List.mem_of_find?_eq_some hf)
        · intro a0 h0 q hq
          have := h3 a0 h0 q hq
          split
          · exact this
          · exact List.mem_append_left _ this
        · intro h0 q hq hl
          have := h4 h0 q hq hl
          split
          · exact this
          · exact List.mem_append_left _ this
        · intro _ _
          split
          · rename_i hm; exact List.ne_nil_of_mem hm
          · simp
        · intro a0 h0 q hq
          split at hq
          · exact .inl (by rw [← h5 a0 h0]; exact hq)
          · rcases List.mem_append.1 hq with hq | hq
            · exact .inl (by rw [← h5 a0 h0]; exact hq)
            · right
              have : q = r := by simpa using hq
              rw [this]
              exact ⟨hp.mem_iff.1 (List.mem_of_find?_eq_some hf), by simpa using List.find?_some hf⟩
        · obtain ⟨e, he, e2⟩ := List.mem_map.1 (hp.mem_iff.1 (List.mem_of_find?_eq_some hf))
          refine ⟨e, he, ?_, by rw [e2]; simpa using List.find?_some hf⟩
          rw [e2]
          split
          · rename_i hm; exact hm
          · simp
  rintro a s2 ⟨g1, g2, g3, g4⟩
  exact .modify (.pure ⟨by rw [g1], g2, g3, g4⟩)

/-- What the ranking iterator keeps between two calls; `start` are the routes it started from. -/
structure Ranked (S : Settings) (md : Mode) (start : List Nat) (R : Nat → Prop) (s : IterState) : Prop extends Base S md R s where
  vehicles : ∃ a, s.attractive = some a ∧
    ∀ w, w ∈ s.ranking.map Prod.fst ↔ ∃ r ∈ a, (s.heap.core.route r).vehicle = w
  nodup : (s.ranking.map Prod.fst).Nodup
  sub : ∀ w l r, (w, l) ∈ s.ranking → (w, r) ∈ s.container → Sub S md R s.heap w r (· ∈ s.pending) l
  loaded : ∀ e ∈ s.container, routeLoaded s.heap.core e.2 = true → e.1 ∈ s.ranking.map Prod.fst
  judged : ∀ e ∈ s.container, e.2 ∈ start ∨ s.heap.rfeas e.2 = some true

theorem SameT.loaded {E : Env} {R : Nat → Prop} {c c' : Core} (a : SameT E R c c') {q : Nat} (hq : R q) :
    routeLoaded c' q = routeLoaded c q := by unfold routeLoaded; rw [a.planned hq]

theorem Idle.same {E : Env} {R : Nat → Prop} {c c' : Core} {d : List (Nat × Nat)} {a : List Nat} (i : Idle c d a) (h : SameT E R c c')
    (ha : ∀ r ∈ a, R r) (hd : ∀ e ∈ d, R e.2) : Idle c' d a := by
  refine ⟨fun r hr => by rw [h.loaded (ha r hr)]; exact i.1 r hr, ?_⟩
  rintro ⟨e, he, hl⟩
  rw [h.loaded (hd e he)] at hl
  obtain ⟨x, hx, hxa, hxl⟩ := i.2 ⟨e, he, hl⟩
  exact ⟨x, hx, hxa, by rw [h.loaded (hd x hx)]; exact hxl⟩

/-- Initialising the ranking. -/
theorem initializeRanking_meets (hE : EnvOK S.env) (hF : Fair S) (hc : Clean S)
    (hx : md = .exact → ∀ t, (S.env.trip t).timeout = .inf) {R : Nat → Prop} {s : IterState} (b : Base S md R s)
    (ha : s.attractive = none) (hr : s.ranking = []) :
    Meets (initializeRanking S) s (fun _ s' => ∃ R', (∀ q, R q → R' q) ∧ SameT S.env R s.heap.core s'.heap.core ∧
      s'.container = s.container ∧ s'.pending = s.pending ∧ (s.container ≠ [] → s'.ranking ≠ []) ∧
      Ranked S md (s.container.map Prod.snd) R' s' ∧ Short s s' ∧
      ((∀ e ∈ s.container, routeLoaded s.heap.core e.2 = false) → ∃ a, s'.attractive = some a ∧ Idle s'.heap.core s'.container a))
      S.strategy.Hangs := by
  unfold initializeRanking
  refine .bind (attractiveRoutes_meets hF) ?_
  rintro a s1 ⟨h1, h2, _, h4, h5, _, h7⟩
  have ha' : ∀ r ∈ a, ∃ v, (v, r) ∈ s.container := by
    intro r hr
    rcases h2 r hr with ⟨a0, h0, _⟩ | h
    · rw [ha] at h0; cases h0
    · obtain ⟨e, he, rfl⟩ := List.mem_map.1 h; exact ⟨e.1, he⟩
  refine .bind (ordered_meets hF) ?_
  rintro a' s2 ⟨hp, h2'⟩
  have hs2 : s2 = { s with attractive := some a, clock := s2.clock } := by rw [h2', h1]
  refine (Meets.forEach (s := s2) (l := a') (fun done s' => ∃ R', (∀ q, R q → R' q) ∧ Base S md R' s' ∧
    SameT S.env R s.heap.core s'.heap.core ∧ s'.container = s.container ∧ s'.pending = s.pending ∧
    s'.attractive = some a ∧ (∀ w, w ∈ s'.ranking.map Prod.fst ↔ ∃ r ∈ done, (s.heap.core.route r).vehicle = w) ∧
    (s'.ranking.map Prod.fst).Nodup ∧ Short s s' ∧
    ∀ w l r, (w, l) ∈ s'.ranking → (w, r) ∈ s'.container → Sub S md R' s'.heap w r (· ∈ s'.pending) l) ?_ ?_).mono ?_
  · rw [hs2]
    refine ⟨R, fun _ h => h, ⟨b.inv, b.routes, b.keys, b.trips, ?_⟩, SameT.refl _, rfl, rfl, rfl, ?_, ?_, fun _ _ _ => rfl, ?_⟩
    · intro a1 h r hr
      cases h
      obtain ⟨v, hv⟩ := ha' r hr
      obtain ⟨k1, k2⟩ := b.routes _ hv
      exact ⟨k1, List.mem_map.2 ⟨_, hv, k2.symm⟩⟩
    · simp [hr]
    · simp [hr]
    · simp [hr]
  · rintro done r s3 hr3 ⟨R3, hsub, b3, same3, hc3, hp3, ha3, hk3, hn3, hsh3, hs3⟩
    obtain ⟨v, hv⟩ := ha' r (hp.mem_iff.1 hr3)
    have hv0 := b.routes _ hv
    have hvr : (s.heap.core.route r).vehicle = v := hv0.2
    refine .bind (createSubRanking_base hE hF hc hx b3 (v := v) (r := r) (by rw [hc3]; exact hv)) ?_
    rintro l s4 ⟨R4, g, hsub4⟩
    have b4 := b3.grew g
    have same4 : SameT S.env R s.heap.core s4.heap.core := same3.trans (g.same.subset hsub)
    have hvr4 : (s4.heap.core.route r).vehicle = v := by rw [same4.route r hv0.1]; exact hvr
    refine .modify_last ⟨R4, fun q h => g.sub q (hsub q h), ⟨b4.inv, b4.routes, b4.keys, b4.trips, b4.attr⟩, same4,
      by show s4.container = _; rw [g.iter.container, hc3], by show s4.pending = _; rw [g.iter.pending, hp3],
      by show s4.attractive = _; rw [g.iter.attractive, ha3], ?_, ?_,
      hsh3.trans g.short hc3 (fun e he => same3.route _ (b.routes e he).1), ?_⟩
    · intro w
      show w ∈ (dictSet s4.ranking (s4.heap.core.route r).vehicle l).map Prod.fst ↔ _
      rw [hvr4, dictSet_keys, g.iter.ranking, hk3 w]
      constructor
      · rintro (rfl | ⟨q, hq, e⟩)
        · exact ⟨r, by simp, hvr⟩
        · exact ⟨q, by simp [hq], e⟩
      · rintro ⟨q, hq, e⟩
        rcases List.mem_append.1 hq with hq | hq
        · exact .inr ⟨q, hq, e⟩
        · have : q = r := by simpa using hq
          rw [this, hvr] at e
          exact .inl e.symm
    · exact dictSet_nodup (by rw [g.iter.ranking]; exact hn3)
    · intro w l' r' hl hr'
      change (w, l') ∈ dictSet s4.ranking (s4.heap.core.route r).vehicle l at hl
      change (w, r') ∈ s4.container at hr'
      rw [hvr4] at hl
      show Sub S md R4 s4.heap w r' (· ∈ s4.pending) l'
      rcases dictSet_mem hl with e | ⟨hne, hl⟩
      · cases e
        have : r' = r := by
          have hm : (v, r) ∈ s4.container := by rw [g.iter.container, hc3]; exact hv
          exact mem_unique (b4.keys_nodup hc) hr' hm
        rw [this]; exact hsub4
      · rw [g.iter.ranking] at hl
        rw [g.iter.container] at hr'
        rw [g.iter.pending]
        exact (hs3 w l' r' hl hr').step (g.frame w hne) g.sub (b3.routes _ hr')
  · rintro _ s' ⟨R', hsub, b', same', hc', hp', hat', hk', hn', hsh', hs'⟩
    refine ⟨R', hsub, same', hc', hp', ?_, ⟨b', ⟨a, hat', ?_⟩, hn', hs', ?_, ?_⟩, hsh', fun hun => ⟨a, hat', ?_⟩⟩
    · intro h0 hr0
      obtain ⟨r, hr⟩ := List.exists_mem_of_ne_nil _ (h5 ha h0)
      have := (hk' (s.heap.core.route r).vehicle).2 ⟨r, hp.mem_iff.2 hr, rfl⟩
      rw [hr0] at this
      simp at this
    · intro w
      rw [hk' w]
      constructor
      · rintro ⟨r, hr, e⟩
        obtain ⟨v, hv⟩ := ha' r (hp.mem_iff.1 hr)
        exact ⟨r, hp.mem_iff.1 hr, by rw [same'.route r (b.routes _ hv).1]; exact e⟩
      · rintro ⟨r, hr, e⟩
        obtain ⟨v, hv⟩ := ha' r hr
        exact ⟨r, hp.mem_iff.2 hr, by rw [same'.route r (b.routes _ hv).1] at e; exact e⟩
    · intro e he hl
      rw [hc'] at he
      rw [same'.loaded (b.routes e he).1] at hl
      rw [hk']
      exact ⟨e.2, hp.mem_iff.2 (h4 ha e.2 (List.mem_map.2 ⟨e, he, rfl⟩) hl), (b.routes e he).2⟩
    · intro e he
      rw [hc'] at he
      exact .inl (List.mem_map.2 ⟨e, he, rfl⟩)
    · have hl : ∀ r ∈ a, routeLoaded s.heap.core r = false := by
        intro r hr
        obtain ⟨v, hv⟩ := ha' r hr
        exact hun _ hv
      rw [hc']
      exact (h7 hl).same same' (fun r hr => by obtain ⟨v, hv⟩ := ha' r hr; exact (b.routes _ hv).1) (fun e he => (b.routes e he).1)

end Jinete
