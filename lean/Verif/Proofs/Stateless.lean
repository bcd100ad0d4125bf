import Verif.Proofs.RankedRun

/-!
# The invariant of the stateless iterator
-/

set_option autoImplicit false

namespace Jinete

variable {S : Settings} {md : Mode} {h0 : Heap} {initial : Option (List Nat)} {start : List (Nat × Nat)} {R : Nat → Prop}
  {s s' : IterState}

/-- `catchStop` of a sequence whose first part does not stop the iteration. -/
theorem catchStop_bind {σ α β : Type} {m : Py σ α} {f : α → Py σ β} {s : σ} {Q : α → σ → Prop} {X : Err → Prop}
    {P : Option β → σ → Prop} (h : Meets m s Q X) (hX : ¬ X .stopIteration)
    (hf : ∀ a s', Q a s' → Meets (catchStop (f a)) s' P X) : Meets (catchStop (m >>= f)) s P X := by
  unfold Meets at h
  rcases e : m s with ⟨r, s'⟩
  rw [e] at h
  cases r with
  | ok a =>
    have := hf a s' h
    unfold Meets catchStop at this ⊢
    rw [Py.bind_ok e]
    exact this
  | error x =>
    unfold Meets catchStop
    rw [Py.bind_error e]
    cases x <;> first | exact h | exact (hX h).elim

theorem catchStop_ok {σ α : Type} {m : Py σ α} {s s' : σ} {a : α} (e : m s = (.ok a, s')) :
    catchStop m s = (.ok (some a), s') := by unfold catchStop; rw [e]

/-- A route that the iterator offers: a start route with one of the pending trips inserted. -/
def Offer (S : Settings) (start : List (Nat × Nat)) (R : Nat → Prop) (s : IterState) (q : Nat) : Prop :=
  ∃ v r0, (v, r0) ∈ start ∧ Cand S R s.heap v r0 (· ∈ s.pending) q

/-- What the stateless iterator keeps between two calls; `start` are its routes at the start, by vehicle. -/
structure Less (S : Settings) (md : Mode) (h0 : Heap) (initial : Option (List Nat)) (start : List (Nat × Nat)) (R : Nat → Prop)
    (s : IterState) : Prop where
  inv : Inv S.env md R s.heap
  origin : ∀ e ∈ start, R e.2 ∧ (s.heap.core.route e.2).vehicle = e.1 ∧ StartDuties S h0 initial e.1 (duties s.heap.core e.2)
  startKeys : (start.map Prod.fst).Perm S.fleet
  keys : (s.container.map Prod.fst).Perm S.fleet
  routes : ∀ e ∈ s.container, R e.2 ∧ (s.heap.core.route e.2).vehicle = e.1 ∧
    (e ∈ start ∨ s.heap.rfeas e.2 = some true ∧ ∃ r0 t i j, (e.1, r0) ∈ start ∧ i < j ∧
      j < (s.heap.core.route r0).stops.length ∧ duties s.heap.core e.2 = withTrip S.env t i j (duties s.heap.core r0))
  trips : (s.pending ++ s.container.flatMap fun e => tripsOf s.heap.core e.2).Subperm S.job
  fresh : s.attractive = none → s.container = start
  opened : s.gen ≠ none → s.attractive ≠ none
  attr : ∀ a, s.attractive = some a → ∀ r ∈ a, ∃ v, (v, r) ∈ start
  gen : ∀ ps qs, s.gen = some (ps, qs) → (∀ x ∈ ps, (∃ v, (v, x.1) ∈ start) ∧ x.2 ∈ s.pending) ∧ ∀ q ∈ qs, Offer S start R s q

theorem Less.nodup (k : Less S md h0 initial start R s) (hc : Clean S) :
    (s.pending ++ s.container.flatMap fun e => tripsOf s.heap.core e.2).Nodup := by
  obtain ⟨l, h1, h2⟩ := k.trips
  exact h1.nodup_iff.1 (h2.nodup hc.job)

theorem Less.pending_length (k : Less S md h0 initial start R s) : s.pending.length ≤ S.job.length := by
  have := k.trips.length_le
  rw [List.length_append] at this
  omega

/-- The route of a vehicle serves what it served at the start. -/
theorem Less.keeps (k : Less S md h0 initial start R s) (hc : Clean S) {v q r0 : Nat} (hq : (v, q) ∈ s.container)
    (h : (v, r0) ∈ start) : (tripsOf s.heap.core r0).Subperm (tripsOf s.heap.core q) := by
  have hn := k.startKeys.nodup_iff.2 hc.fleet
  rcases (k.routes _ hq).2.2 with h1 | ⟨_, r1, t, i, j, h1, hij, _, hd⟩
  · rw [mem_unique hn h h1]
  · rw [mem_unique hn h h1]
    exact (List.sublist_cons_self ..).subperm.trans (tripsOf_withTrip hij hd).symm.subperm

theorem Less.current (k : Less S md h0 initial start R s) {v r0 : Nat} (h : (v, r0) ∈ start) : ∃ q, (v, q) ∈ s.container := by
  have h1 : v ∈ S.fleet := k.startKeys.mem_iff.1 (List.mem_map.2 ⟨_, h, rfl⟩)
  obtain ⟨⟨v', q⟩, h2, rfl⟩ := List.mem_map.1 (k.keys.mem_iff.2 h1)
  exact ⟨q, h2⟩

theorem Less.free (k : Less S md h0 initial start R s) (hc : Clean S) {v r0 t : Nat} (h : (v, r0) ∈ start)
    (ht : t ∈ s.pending) : t ∉ tripsOf s.heap.core r0 := by
  obtain ⟨q, hq⟩ := k.current h
  intro h1
  have h2 := (k.keeps hc hq h).subset h1
  exact (List.nodup_append.1 (k.nodup hc)).2.2 t ht t (List.mem_flatMap.2 ⟨_, hq, h2⟩) rfl

theorem Offer.move {R' : Nat → Prop} {q : Nat} (o : Offer S start R s q) (same : SameT S.env R s.heap.core s'.heap.core)
    (hR : ∀ q, R q → R' q) (kept : ∀ q b, R q → s.heap.rfeas q = some b → s'.heap.rfeas q = some b)
    (ho : ∀ e ∈ start, R e.2) (hp : s'.pending = s.pending) : Offer S start R' s' q := by
  obtain ⟨v, r0, h, c⟩ := o
  have h0 := ho _ h
  refine ⟨v, r0, h, hR q c.mem, by rw [same.route q c.mem]; exact c.vehicle, ?_, ?_, ?_⟩
  · obtain ⟨t, i, j, a1, a2, a3, a4⟩ := c.duties
    exact ⟨t, i, j, by rw [hp]; exact a1, a2, by rw [same.route r0 h0]; exact a3, by rw [same.duties c.mem, same.duties h0, a4]⟩
  · intro p hpp ht
    rw [same.planned c.mem] at hpp
    rw [same.planned_pt c.mem hpp] at ht ⊢
    rw [same.tripsOf h0] at ht
    exact c.owner p hpp ht
  · obtain ⟨b, hb, hf⟩ := c.memo
    exact ⟨b, kept q b c.mem hb, hf⟩

/-- Changes of the heap that keep the routes of the family. -/
theorem Less.move {R' : Nat → Prop} (k : Less S md h0 initial start R s) (inv : Inv S.env md R' s'.heap)
    (same : SameT S.env R s.heap.core s'.heap.core) (hR : ∀ q, R q → R' q)
    (kept : ∀ q b, R q → s.heap.rfeas q = some b → s'.heap.rfeas q = some b) (hc : s'.container = s.container)
    (ha : s'.attractive = s.attractive) (hp : s'.pending = s.pending)
    (hg : s'.gen = s.gen ∨ s.attractive ≠ none ∧ ∀ ps qs, s'.gen = some (ps, qs) →
      (∀ x ∈ ps, (∃ v, (v, x.1) ∈ start) ∧ x.2 ∈ s'.pending) ∧ ∀ q ∈ qs, Offer S start R' s' q) :
    Less S md h0 initial start R' s' where
  inv := inv
  origin e he := by
    obtain ⟨h1, h2, h3⟩ := k.origin e he
    exact ⟨hR _ h1, by rw [same.route _ h1]; exact h2, by rw [same.duties h1]; exact h3⟩
  startKeys := k.startKeys
  keys := by rw [hc]; exact k.keys
  routes e he := by
    rw [hc] at he
    obtain ⟨h1, h2, h3⟩ := k.routes e he
    refine ⟨hR _ h1, by rw [same.route _ h1]; exact h2, h3.imp id ?_⟩
    rintro ⟨hf, r0, t, i, j, h4, h5, h6, h7⟩
    have hr := (k.origin _ h4).1
    exact ⟨kept _ _ h1 hf, r0, t, i, j, h4, h5, by rw [same.route _ hr]; exact h6,
      by rw [same.duties h1, same.duties hr]; exact h7⟩
  trips := by
    have : s'.container.flatMap (fun e => tripsOf s'.heap.core e.2) = s.container.flatMap fun e => tripsOf s.heap.core e.2 := by
      rw [hc]
      exact List.flatMap_congr fun e he => same.tripsOf (k.routes e he).1
    rw [hp, this]; exact k.trips
  fresh h := by rw [hc]; exact k.fresh (by rw [← ha]; exact h)
  opened h := by
    rw [ha]
    rcases hg with hg | hg
    · exact k.opened (by rw [← hg]; exact h)
    · exact hg.1
  attr a h := k.attr a (by rw [← ha]; exact h)
  gen ps qs h := by
    rcases hg with hg | hg
    · rw [hg] at h
      obtain ⟨h1, h2⟩ := k.gen ps qs h
      exact ⟨fun x hx => ⟨(h1 x hx).1, by rw [hp]; exact (h1 x hx).2⟩,
        fun q hq => (h2 q hq).move same hR kept (fun e he => (k.origin e he).1) hp⟩
    · exact hg.2 ps qs h

theorem Less.growsV (k : Less S md h0 initial start R s) (g : GrowsV S.env s.heap s'.heap) (hi : SameIter s s') :
    Less S md h0 initial start R s' :=
  k.move (k.inv.growsV g) (by rw [g.core]; exact SameT.refl _) (fun _ h => h) (fun _ _ _ h => g.kept h) hi.container
    hi.attractive hi.pending (.inl (by rw [hi]))

theorem Offer.growsV {q : Nat} (o : Offer S start R s q) (k : Less S md h0 initial start R s) (g : GrowsV S.env s.heap s'.heap)
    (hi : SameIter s s') : Offer S start R s' q :=
  o.move (by rw [g.core]; exact SameT.refl _) (fun _ h => h) (fun _ _ _ h => g.kept h) (fun e he => (k.origin e he).1) hi.pending

/-- The routes for one trip. -/
theorem computeOne_meets (hE : EnvOK S.env) (hF : Fair S) (hc : Clean S)
    (hx : md = .exact → ∀ t, (S.env.trip t).timeout = .inf) (k : Less S md h0 initial start R s) {r t n : Nat}
    (hr : ∃ v, (v, r) ∈ start) (ht : t ∈ s.pending) :
    Meets (onHeap (S.strategy.compute S.env S.onlyFeasible n r [t])) s (fun rs s' => SameIter s s' ∧ ∃ R', (∀ q, R q → R' q) ∧
      SameT S.env R s.heap.core s'.heap.core ∧ (∀ q b, R q → s.heap.rfeas q = some b → s'.heap.rfeas q = some b) ∧
      Inv S.env md R' s'.heap ∧ ∀ q ∈ rs, Offer S start R' s' q) S.strategy.Hangs := by
  obtain ⟨v, hr⟩ := hr
  obtain ⟨hR, hv, _⟩ := k.origin _ hr
  have hfree := k.free hc hr ht
  refine .onHeap ((Strategy.compute_meets hE hx hF.randInt S.onlyFeasible n k.inv hR [t] (by simpa using hfree)).mono ?_)
  rintro rs h' ⟨ps, cand, rfl, ba, hps, _⟩
  refine ⟨rfl, Upto R s.heap h', fun _ h => .inl h, ba.same, ba.kept, ba.inv, ?_⟩
  intro q hq
  obtain ⟨c, hc, rfl⟩ := List.mem_map.1 hq
  obtain ⟨hc, hf⟩ := List.mem_filter.1 hc
  have hd0 : duties h'.core r = duties s.heap.core r := ba.same.duties hR
  have hr0 : h'.core.route r = s.heap.core.route r := ba.same.route r hR
  have hvr : (s.heap.core.route r).vehicle = v := hv
  refine ⟨v, r, hr, ?_, ?_, ?_, ?_, ⟨c.2, ba.memo c hc, fun ho => by simpa [ho] using hf⟩⟩
  · right
    have : c.1 ∈ cand.map Prod.fst := List.mem_map.2 ⟨c, hc, rfl⟩
    rw [ba.ids, List.mem_range'] at this
    obtain ⟨i, hi, e⟩ := this
    rw [ba.nRoute, e]
    constructor <;> omega
  · show (h'.core.route c.1).vehicle = v
    rw [ba.vehicle c hc]; exact hvr
  · have : duties h'.core c.1 ∈ cand.map (fun c => duties h'.core c.1) := List.mem_map.2 ⟨c, hc, rfl⟩
    rw [ba.duties] at this
    obtain ⟨x, hx, e⟩ := List.mem_map.1 this
    obtain ⟨y, hy, hx⟩ := List.mem_flatMap.1 hx
    obtain ⟨t', ht', rfl⟩ := List.mem_map.1 hx
    have : t' = t := by simpa using ht'
    subst this
    obtain ⟨v1, v2⟩ := hps y hy
    exact ⟨t', y.1, y.2, ht, v1, by rw [hr0]; exact v2, by rw [hd0]; exact e.symm⟩
  · intro p hp ht'
    change (h'.core.pt p).trip ∉ tripsOf h'.core r at ht'
    rw [ba.same.tripsOf hR] at ht'
    show (h'.core.pt p).vehicle = v
    rw [ba.owner c hc p hp ht']; exact hvr

/-- What `next` leaves behind. -/
def Offered (S : Settings) (md : Mode) (h0 : Heap) (initial : Option (List Nat)) (start : List (Nat × Nat)) (R : Nat → Prop)
    (s : IterState) (o : Option Nat) (s' : IterState) : Prop :=
  s'.container = s.container ∧ s'.pending = s.pending ∧ s'.attractive ≠ none ∧ ∃ R', (∀ q, R q → R' q) ∧
    SameT S.env R s.heap.core s'.heap.core ∧ Less S md h0 initial start R' s' ∧ ∀ q, o = some q → Offer S start R' s' q

theorem hangs_not_stop : ¬ S.strategy.Hangs .stopIteration := fun h => nomatch h.1

theorem advance_meets (hE : EnvOK S.env) (hF : Fair S) (hc : Clean S)
    (hx : md = .exact → ∀ t, (S.env.trip t).timeout = .inf) : ∀ (ps : List (Nat × Nat)) (qs : List Nat) {R : Nat → Prop}
    {s : IterState}, Less S md h0 initial start R s → s.attractive ≠ none →
    (∀ x ∈ ps, (∃ v, (v, x.1) ∈ start) ∧ x.2 ∈ s.pending) → (∀ q ∈ qs, Offer S start R s q) →
    Meets (catchStop (advance S ps qs)) s (fun o s' => Offered S md h0 initial start R s o s') S.strategy.Hangs := by
  intro ps
  -- a route at hand
  have yield : ∀ {R : Nat → Prop} {s : IterState} (ps : List (Nat × Nat)) (r : Nat) (rs : List Nat), Less S md h0 initial start R s →
      s.attractive ≠ none → (∀ x ∈ ps, (∃ v, (v, x.1) ∈ start) ∧ x.2 ∈ s.pending) → (∀ q ∈ r :: rs, Offer S start R s q) →
      Offered S md h0 initial start R s (some r) { s with gen := some (ps, rs) } := by
    intro R s ps r rs k ha hps hqs
    have mv : ∀ q, Offer S start R s q → Offer S start R { s with gen := some (ps, rs) } q := fun q o => o
    refine ⟨rfl, rfl, ha, R, fun _ h => h, SameT.refl _, k.move k.inv (SameT.refl _) (fun _ h => h) (fun _ _ _ h => h) rfl rfl rfl
      (.inr ⟨ha, ?_⟩), ?_⟩
    · intro ps' qs' e
      cases e
      exact ⟨hps, fun q hq => mv q (hqs q (by simp [hq]))⟩
    · intro q e
      cases e
      exact mv _ (hqs _ (by simp))
  induction ps with
  | nil =>
    intro qs R s k ha hps hqs
    cases qs with
    | cons r rs => exact .of_ok rfl (yield [] r rs k ha hps hqs)
    | nil =>
      refine .of_ok (a := none) (s' := { s with gen := some ([], []) }) rfl ⟨rfl, rfl, ha, R, fun _ h => h, SameT.refl _,
        k.move k.inv (SameT.refl _) (fun _ h => h) (fun _ _ _ h => h) rfl rfl rfl (.inr ⟨ha, ?_⟩), fun _ h => nomatch h⟩
      intro ps' qs' e
      cases e
      simp
  | cons x ps ih =>
    intro qs R s k ha hps hqs
    cases qs with
    | cons r rs => exact .of_ok rfl (yield (x :: ps) r rs k ha hps hqs)
    | nil =>
      obtain ⟨r, t⟩ := x
      rw [advance]
      refine catchStop_bind (Q := fun _ s1 => s1 = { s with clock := s1.clock }) (.tick rfl) hangs_not_stop ?_
      rintro n s1 h1
      have k1 : Less S md h0 initial start R s1 := by
        rw [h1]
        exact k.move k.inv (SameT.refl _) (fun _ h => h) (fun _ _ _ h => h) rfl rfl rfl (.inl rfl)
      have hp1 : s1.pending = s.pending := by rw [h1]
      have hh1 : s1.heap = s.heap := by rw [h1]
      obtain ⟨hr, ht⟩ := hps (r, t) (by simp)
      refine catchStop_bind (computeOne_meets hE hF hc hx k1 hr (by rw [hp1]; exact ht)) hangs_not_stop ?_
      rintro rs s2 ⟨hi, R2, hR, same, kept, inv, ho⟩
      have k2 : Less S md h0 initial start R2 s2 := k1.move inv same hR kept hi.container hi.attractive hi.pending (.inl (by rw [hi]))
      have ha2 : s2.attractive ≠ none := by rw [hi.attractive, h1]; exact ha
      have hps2 : ∀ x ∈ ps, (∃ v, (v, x.1) ∈ start) ∧ x.2 ∈ s2.pending := by
        intro x hx
        rw [hi.pending, hp1]
        exact hps x (by simp [hx])
      have fin : ∀ o s', Offered S md h0 initial start R2 s2 o s' → Offered S md h0 initial start R s o s' := by
        rintro o s' ⟨a1, a2, a3, R', a4, a5, a6, a7⟩
        refine ⟨by rw [a1, hi.container, h1], by rw [a2, hi.pending, hp1], a3, R', fun q h => a4 q (hR q h), ?_, a6, a7⟩
        rw [hh1] at same
        exact same.trans (a5.subset hR)
      cases rs with
      | nil => exact (ih [] k2 ha2 hps2 (by simp)).mono fin
      | cons r' rs => exact .of_ok rfl (fin _ _ (yield ps r' rs k2 ha2 hps2 ho))

/-- The generator. -/
theorem openGenerator_meets (hF : Fair S) (k : Less S md h0 initial start R s) {X : Err → Prop} :
    Meets (openGenerator S) s (fun g s' => s' = { s with attractive := s'.attractive, clock := s'.clock } ∧ s'.attractive ≠ none ∧
      Less S md h0 initial start R s' ∧ (∀ x ∈ g.1, (∃ v, (v, x.1) ∈ start) ∧ x.2 ∈ s'.pending) ∧ ∀ q ∈ g.2, Offer S start R s' q) X := by
  unfold openGenerator
  refine .read ?_
  cases hg : s.gen with
  | some g =>
    obtain ⟨h1, h2⟩ := k.gen g.1 g.2 hg
    exact .pure ⟨by rw [← hg], k.opened (by rw [hg]; simp), k, h1, h2⟩
  | none =>
    refine .bind (attractiveRoutes_meets hF) ?_
    rintro a s1 ⟨e1, h2, _, _, _, h6, _⟩
    have ha : ∀ r ∈ a, ∃ v, (v, r) ∈ start := by
      intro r hr
      cases hat : s.attractive with
      | none =>
        rcases h2 r hr with ⟨a0, e0, _⟩ | h
        · rw [hat] at e0; cases e0
        · obtain ⟨e, he, rfl⟩ := List.mem_map.1 h
          exact ⟨e.1, by rw [← k.fresh hat]; exact he⟩
      | some a0 =>
        rcases h6 a0 hat r hr with h | ⟨h, hl⟩
        · exact k.attr a0 hat r h
        · obtain ⟨e, he, rfl⟩ := List.mem_map.1 h
          rcases (k.routes e he).2.2 with h | ⟨_, r0, t, i, j, _, hij, _, hd⟩
          · exact ⟨e.1, h⟩
          · exfalso
            have ht : t ∈ tripsOf s.heap.core e.2 := (tripsOf_withTrip hij hd).mem_iff.2 (by simp)
            rw [tripsOf_eq] at ht
            obtain ⟨p, hp, _⟩ := List.mem_map.1 ht
            unfold routeLoaded at hl
            simp only [Bool.not_eq_false', List.isEmpty_iff] at hl
            rw [hl] at hp
            simp at hp
    refine .bind (ordered_meets hF) ?_
    rintro a' s2 ⟨hp, rfl⟩
    refine .bind (ordered_meets hF) ?_
    rintro ts s3 ⟨ht, rfl⟩
    refine .pure ⟨by rw [e1, hg], ?_, ?_, ?_, by simp⟩
    · rw [e1]; simp
    · rw [e1]
      exact ⟨k.inv, k.origin, k.startKeys, k.keys, k.routes, k.trips, (fun h => nomatch h), (fun _ h => nomatch h),
        (fun a'' e r hr => by cases e; exact ha r hr), fun ps qs e => by rw [hg] at e; cases e⟩
    · intro x hx
      obtain ⟨r, hr, hx⟩ := List.mem_flatMap.1 hx
      obtain ⟨t, ht', rfl⟩ := List.mem_map.1 hx
      refine ⟨ha r (hp.mem_iff.1 hr), ?_⟩
      rw [e1]
      exact ht.mem_iff.1 ht'

/-- `next`. -/
theorem nextStateless_meets (hE : EnvOK S.env) (hF : Fair S) (hc : Clean S)
    (hx : md = .exact → ∀ t, (S.env.trip t).timeout = .inf) (k : Less S md h0 initial start R s) :
    Meets (catchStop (nextStateless S)) s (fun o s' => Offered S md h0 initial start R s o s') S.strategy.Hangs := by
  unfold nextStateless
  refine catchStop_bind (openGenerator_meets hF k) hangs_not_stop ?_
  rintro ⟨ps, qs⟩ s1 ⟨e1, ha, k1, h1, h2⟩
  refine (advance_meets hE hF hc hx ps qs k1 ha h1 h2).mono ?_
  rintro o s' ⟨a1, a2, a3, R', a4, a5, a6, a7⟩
  refine ⟨by rw [a1, e1], by rw [a2, e1], a3, R', a4, ?_, a6, a7⟩
  have : s1.heap = s.heap := by rw [e1]
  rw [this] at a5
  exact a5

/-- Accepting an offered route: it replaces the route of its vehicle, and one trip is no longer pending. -/
theorem setRouteStateless_meets (hc : Clean S) (k : Less S md h0 initial start R s) (ha : s.attractive ≠ none) {r : Nat}
    (o : Offer S start R s r) (hf : s.heap.rfeas r = some true) {X : Err → Prop} :
    Meets (setRoute markStateless r) s (fun _ s' => ∃ w t r0, Accepted S s s' w r t ∧ (w, r0) ∈ start ∧
      (tripsOf s.heap.core r).Perm (t :: tripsOf s.heap.core r0) ∧ s'.heap = s.heap ∧
      Less S md h0 initial start R s') X := by
  obtain ⟨w, r0, hr0, cand⟩ := o
  obtain ⟨q, hq⟩ := k.current hr0
  obtain ⟨t, i, j, htp, hij, hj, hd⟩ := cand.duties
  change t ∈ s.pending at htp
  have hperm := tripsOf_withTrip hij hd
  have ht0 := k.free hc hr0 htp
  have hall := List.nodup_append.1 (k.nodup hc)
  have hkn : (s.container.map Prod.fst).Nodup := k.keys.nodup_iff.2 hc.fleet
  have htq : t ∉ tripsOf s.heap.core q := fun h => hall.2.2 t htp t (List.mem_flatMap.2 ⟨_, hq, h⟩) rfl
  have hkeep := k.keeps hc hq hr0
  have hnr0 : (tripsOf s.heap.core r0).Nodup := by
    have := hall.2.1
    obtain ⟨x, y, e⟩ := List.append_of_mem hq
    rw [e, List.flatMap_append, List.flatMap_cons] at this
    have hnq : (tripsOf s.heap.core q).Nodup := (List.nodup_append.1 (List.nodup_append.1 this).2.1).1
    obtain ⟨l, h1, h2⟩ := hkeep
    exact h1.nodup_iff.1 (h2.nodup hnq)
  have hnr : (tripsOf s.heap.core r).Nodup := hperm.nodup_iff.2 (List.nodup_cons.2 ⟨ht0, hnr0⟩)
  have htr : t ∈ tripsOf s.heap.core r := hperm.mem_iff.2 (by simp)
  rw [tripsOf_eq] at htr
  obtain ⟨p, hp, hpt⟩ := List.mem_map.1 htr
  have hpt : (s.heap.core.pt p).trip = t := hpt
  obtain ⟨x, y, hsplit⟩ := List.append_of_mem hp
  have hother : ∀ z ∈ x ++ y, (s.heap.core.pt z).trip ∈ routeTrips s.heap.core q := by
    intro z hz
    have hz' : z ∈ routePlannedTrips s.heap.core r := by
      rw [hsplit]
      rcases List.mem_append.1 hz with h | h
      · exact List.mem_append_left _ h
      · exact List.mem_append_right _ (List.mem_cons_of_mem _ h)
    have h1 : (s.heap.core.pt z).trip ∈ tripsOf s.heap.core r := by
      rw [tripsOf_eq]; exact List.mem_map.2 ⟨z, hz', rfl⟩
    rcases List.mem_cons.1 (hperm.mem_iff.1 h1) with h | h
    · exfalso
      rw [tripsOf_eq, routeTrips, hsplit] at hnr
      simp only [List.map_append, List.map_cons] at hnr
      have hn := List.nodup_append.1 hnr
      rcases List.mem_append.1 hz with hz | hz
      · exact hn.2.2 _ (List.mem_map.2 ⟨z, hz, rfl⟩) _ (List.mem_cons_self ..) (h.trans hpt.symm)
      · exact (List.nodup_cons.1 hn.2.1).1 (List.mem_map.2 ⟨z, hz, h.trans hpt.symm⟩)
    · rw [← tripsOf_eq]; exact hkeep.subset h
  have hpn : (s.heap.core.pt p).trip ∉ routeTrips s.heap.core q := by rw [hpt, ← tripsOf_eq]; exact htq
  have hrv : (s.heap.core.route r).vehicle = w := cand.vehicle
  unfold setRoute
  refine .read ?_
  rw [hrv]
  refine .bind (dictGet_meets (lookup_of_mem hkn hq)) ?_
  rintro r1 s1 ⟨e1, e2⟩
  rw [e1, e2]
  refine .modify ?_
  rw [hsplit, forEach_single (fun z hz => if_pos (hother z (List.mem_append_left _ hz)))
    (fun z hz => if_pos (hother z (List.mem_append_right _ hz))), if_neg hpn]
  unfold markStateless markTripDone
  refine .read ?_
  refine .bind (Q := fun _ s' => s' = { s with container := dictSet s.container w r, pending := s.pending.erase t })
    (.read ?_) ?_
  · rw [hpt, if_pos htp]
    exact .modify_last rfl
  rintro _ _ rfl
  obtain ⟨A, B, eA, eB⟩ := dictSet_split hkn hq r
  refine .modify_last ⟨w, t, r0, ⟨rfl, htp, rfl⟩, hr0, hperm, rfl, ?_⟩
  refine ⟨k.inv, k.origin, k.startKeys, ?_, ?_, ?_, fun h => (ha h).elim, fun h => (h rfl).elim, k.attr, fun _ _ h => nomatch h⟩
  · show ((dictSet s.container w r).map Prod.fst).Perm S.fleet
    rw [dictSet_keys_mem (List.mem_map.2 ⟨_, hq, rfl⟩)]; exact k.keys
  · intro e he
    rcases dictSet_mem he with rfl | ⟨_, he⟩
    · exact ⟨cand.mem, hrv, .inr ⟨hf, r0, t, i, j, hr0, hij, hj, hd⟩⟩
    · exact k.routes e he
  · show (s.pending.erase t ++ (dictSet s.container w r).flatMap fun e => tripsOf s.heap.core e.2).Subperm S.job
    refine List.Subperm.trans ?_ k.trips
    rw [eB]
    conv_rhs => rw [eA]
    rw [List.flatMap_append, List.flatMap_cons, List.flatMap_append, List.flatMap_cons, List.subperm_ext_iff]
    intro z _
    have h2 := List.perm_iff_count.1 hperm z
    have h3 := List.perm_iff_count.1 (List.perm_cons_erase htp) z
    have h4 := hkeep.count_le z
    simp only [List.count_append, List.count_cons] at h2 h3 ⊢
    omega

/-- The state after construction. -/
theorem iteratorInit_less (hF : Fair S) (hc : Clean S) (hs : Starts S md h0 initial) {X : Err → Prop} :
    Meets (iteratorInit S initial) (.initial h0) (fun _ s => ∃ R, s.attractive = none ∧ Less S md h0 initial s.container R s) X := by
  refine (iteratorInit_meets hF hc hs).mono ?_
  rintro _ s ⟨R, b, h1, _, h3, h4, _⟩
  refine ⟨R, h1, b.inv, fun e he => ⟨(b.routes e he).1, (b.routes e he).2, h4 e he⟩, b.keys, b.keys,
    fun e he => ⟨(b.routes e he).1, (b.routes e he).2, .inl he⟩, b.trips.subperm, fun _ => rfl, fun h => (h h3).elim,
    (fun a e => by rw [h1] at e; cases e), fun _ _ e => by rw [h3] at e; cases e⟩

/-- One accepted route. -/
theorem Less.step (hE : EnvOK S.env) (hF : Fair S) (hc : Clean S)
    (hx : md = .exact → ∀ t, (S.env.trip t).timeout = .inf) (k : Less S md h0 initial start R s) {s1 s2 s3 : IterState} {r : Nat}
    (e1 : nextStateless S s = (.ok r, s1)) (e2 : onHeap (routeFeasible S.env r) s1 = (.ok true, s2))
    (e3 : setRoute markStateless r s2 = (.ok (), s3)) :
    ∃ R' w t r0, (∀ q, R q → R' q) ∧ SameT S.env R s.heap.core s3.heap.core ∧ Accepted S s s3 w r t ∧ (w, r0) ∈ start ∧
      (tripsOf s3.heap.core r).Perm (t :: tripsOf s3.heap.core r0) ∧ Less S md h0 initial start R' s3 := by
  obtain ⟨a1, a2, a3, R', a4, a5, k1, a7⟩ := (nextStateless_meets hE hF hc hx k).ok (catchStop_ok e1)
  have o := a7 r rfl
  obtain ⟨v, r0, h0', c⟩ := o
  obtain ⟨i2, g2, hf⟩ := (feasible_meets (X := fun _ => False) hE k1.inv c.mem).ok e2
  have k2 := k1.growsV g2 i2
  have o2 : Offer S start R' s2 r := Offer.growsV ⟨v, r0, h0', c⟩ k1 g2 i2
  obtain ⟨w, t, r0', acc, hw, hp, hh, k3⟩ := (setRouteStateless_meets (X := fun _ => False) hc k2 (by rw [i2.attractive]; exact a3) o2 hf).ok e3
  refine ⟨R', w, t, r0', a4, ?_, ?_, hw, by rw [hh]; exact hp, k3⟩
  · rw [hh, g2.core]; exact a5
  · exact ⟨by rw [acc.pending, i2.pending, a2], by rw [← a2, ← i2.pending]; exact acc.mem,
      by rw [acc.container, i2.container, a1]⟩

theorem StatelessRun.less (hE : EnvOK S.env) (hF : Fair S) (hc : Clean S)
    (hx : md = .exact → ∀ t, (S.env.trip t).timeout = .inf) (hs : Starts S md h0 initial) (run : StatelessRun S h0 initial s) :
    ∃ start R, Less S md h0 initial start R s := by
  induction run with
  | init e =>
    obtain ⟨R, _, k⟩ := (iteratorInit_less (X := fun _ => False) hF hc hs).ok e
    exact ⟨_, R, k⟩
  | step _ e1 e2 e3 ih =>
    obtain ⟨start, R, k⟩ := ih
    obtain ⟨R', _, _, _, _, _, _, _, _, k3⟩ := k.step hE hF hc hx e1 e2 e3
    exact ⟨start, R', k3⟩

/-- The loop keeps the invariant and needs at most one pass per pending trip and one more. -/
theorem statelessLoop_meets (hE : EnvOK S.env) (hF : Fair S) (hc : Clean S)
    (hx : md = .exact → ∀ t, (S.env.trip t).timeout = .inf) : ∀ (n : Nat) {R : Nat → Prop} {s : IterState},
    Less S md h0 initial start R s →
    Meets (insertionLoop S (nextStateless S) markStateless n) s (fun _ s' => ∃ R', Less S md h0 initial start R' s')
      (fun e => S.strategy.Hangs e ∨ e = .outOfFuel ∧ n ≤ s.pending.length) := by
  intro n
  induction n with
  | zero => intro R s _; exact .of_error (x := .outOfFuel) rfl (.inr ⟨rfl, Nat.zero_le _⟩)
  | succ n ih =>
    intro R s k
    rw [insertionLoop]
    refine .bind ((nextStateless_meets hE hF hc hx k).monoX fun _ h => .inl h) ?_
    rintro (_ | r) s1 ⟨a1, a2, a3, R1, a4, a5, k1, a7⟩
    · exact .pure ⟨R1, k1⟩
    · obtain ⟨v, r0, h0', c⟩ := a7 r rfl
      show Meets (onHeap (routeFeasible S.env r) >>= fun b => _) _ _ _
      refine .bind (feasible_meets hE k1.inv c.mem) ?_
      rintro b s2 ⟨i2, g2, hf⟩
      have k2 := k1.growsV g2 i2
      cases b with
      | false => exact .pure ⟨R1, k2⟩
      | true =>
        have o2 : Offer S start R1 s2 r := Offer.growsV ⟨v, r0, h0', c⟩ k1 g2 i2
        refine .bind (setRouteStateless_meets hc k2 (by rw [i2.attractive]; exact a3) o2 hf) ?_
        rintro _ s3 ⟨w, t, r0', acc, _, _, _, k3⟩
        have hlen : s3.pending.length + 1 = s.pending.length := by
          rw [acc.pending, ← a2, ← i2.pending, List.length_erase_of_mem acc.mem]
          have := List.length_pos_of_mem acc.mem
          omega
        refine (ih k3).monoX ?_
        rintro e (h | ⟨h, h'⟩)
        · exact .inl h
        · exact .inr ⟨h, by omega⟩

theorem statelessAlgorithm_meets (hE : EnvOK S.env) (hF : Fair S) (hc : Clean S)
    (hx : md = .exact → ∀ t, (S.env.trip t).timeout = .inf) (hs : Starts S md h0 initial) (n : Nat) :
    Meets (statelessAlgorithm S initial n) (.initial h0) (fun rs s' => rs.Perm (s'.container.map Prod.snd) ∧
      ∃ start R', Less S md h0 initial start R' s') (fun e => S.strategy.Hangs e ∨ e = .outOfFuel ∧ n ≤ S.job.length) := by
  unfold statelessAlgorithm
  refine .bind (iteratorInit_less hF hc hs) ?_
  rintro _ s ⟨R, _, k⟩
  have hlen := k.pending_length
  refine .bind ((statelessLoop_meets hE hF hc hx n k).monoX ?_) ?_
  · rintro e (h | ⟨h, h'⟩)
    · exact .inl h
    · exact .inr ⟨h, by omega⟩
  · rintro _ s1 ⟨R1, k1⟩
    unfold iterRoutes
    refine .read ((ordered_meets hF).mono ?_)
    rintro rs s2 ⟨hp, e2⟩
    have hi : SameIter s1 s2 := by rw [e2]; rfl
    have g : GrowsV S.env s1.heap s2.heap := by rw [e2]; exact GrowsV.refl _
    exact ⟨by rw [hi.container]; exact hp, _, R1, k1.growsV g hi⟩

end Jinete
