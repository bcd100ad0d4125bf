import Verif.Proofs.FootIterator
import Verif.Proofs.Copy
import Verif.Props.Reallocation
import Verif.Props.Insertion

/-!
# C79, C80: whoever works on a deep copy leaves everything that existed alone

Local search strategies and insertion algorithms copy the routes they start from. Whatever they do afterwards, returning
or raising, no attribute and no memoised value of any object that existed changes, and what they return shares no object
with what existed.
-/

set_option autoImplicit false

namespace Jinete

open Region

variable {E : Env}

/-- Inside a deep copy everything refers to the copy. -/
theorem double_enclosed {h : Heap} (nd : NoDangling h.core) : Enclosed (of h.core) h.double.core := by
  refine ⟨⟨Nat.le_add_left _ _, Nat.le_add_left _ _, Nat.le_add_left _ _⟩, ?_, ?_, ?_⟩
  · rintro s ⟨h1, h2⟩
    obtain ⟨k, rfl⟩ : ∃ k, s = k + h.core.nStop := ⟨s - h.core.nStop, by have : h.core.nStop ≤ s := h1; omega⟩
    have hk : k < h.core.nStop := by have : k + h.core.nStop < h.core.nStop + h.core.nStop := h2; omega
    rw [double_stop hk]
    refine ⟨fun q e => ?_, fun p hp => ?_, fun p hp => ?_⟩
    · obtain ⟨q', e', rfl⟩ := Option.map_eq_some_iff.1 e
      have := nd.previous k hk q' e'
      exact ⟨Nat.le_add_left _ _, show q' + h.core.nStop < h.core.nStop + h.core.nStop by omega⟩
    · obtain ⟨q', e', rfl⟩ := List.mem_map.1 hp
      have := nd.pickups k hk q' e'
      exact ⟨Nat.le_add_left _ _, show q' + h.core.nPt < h.core.nPt + h.core.nPt by omega⟩
    · obtain ⟨q', e', rfl⟩ := List.mem_map.1 hp
      have := nd.deliveries k hk q' e'
      exact ⟨Nat.le_add_left _ _, show q' + h.core.nPt < h.core.nPt + h.core.nPt by omega⟩
  · rintro s ⟨h1, h2⟩
    obtain ⟨k, rfl⟩ : ∃ k, s = k + h.core.nPt := ⟨s - h.core.nPt, by have : h.core.nPt ≤ s := h1; omega⟩
    have hk : k < h.core.nPt := by have : k + h.core.nPt < h.core.nPt + h.core.nPt := h2; omega
    rw [double_pt hk]
    refine ⟨fun q e => ?_, fun q e => ?_⟩
    · obtain ⟨q', e', rfl⟩ := Option.map_eq_some_iff.1 e
      have := nd.pickup k hk q' e'
      exact ⟨Nat.le_add_left _ _, show q' + h.core.nStop < h.core.nStop + h.core.nStop by omega⟩
    · obtain ⟨q', e', rfl⟩ := Option.map_eq_some_iff.1 e
      have := nd.delivery k hk q' e'
      exact ⟨Nat.le_add_left _ _, show q' + h.core.nStop < h.core.nStop + h.core.nStop by omega⟩
  · rintro s ⟨h1, h2⟩
    obtain ⟨k, rfl⟩ : ∃ k, s = k + h.core.nRoute := ⟨s - h.core.nRoute, by have : h.core.nRoute ≤ s := h1; omega⟩
    have hk : k < h.core.nRoute := by have : k + h.core.nRoute < h.core.nRoute + h.core.nRoute := h2; omega
    rw [show h.double.core.route (k + h.core.nRoute) = (h.core.route k).moved h.core.nStop from
      repeated_high (g := fun r => (h.core.route r).moved h.core.nStop) hk]
    intro x hx
    obtain ⟨q', e', rfl⟩ := List.mem_map.1 hx
    have := nd.stops k hk q' e'
    exact ⟨Nat.le_add_left _ _, show q' + h.core.nStop < h.core.nStop + h.core.nStop by omega⟩

theorem double_spared (h : Heap) : Spared (of h.core) h h.double := by
  have b := double_below h
  exact ⟨⟨b.nStop, b.nPt, b.nRoute⟩, fun x hx => ⟨b.stop x hx, b.caches x hx⟩, fun x hx => b.pt x hx, fun x hx => b.route x hx⟩

/-- The region of no object at all is closed. -/
theorem nothing_enclosed (h : Heap) : Enclosed (of h.core) h.core :=
  ⟨Le.refl _, fun _ hs => absurd hs.2 (Nat.not_lt.2 hs.1), fun _ hs => absurd hs.2 (Nat.not_lt.2 hs.1), fun _ hs => absurd hs.2 (Nat.not_lt.2 hs.1)⟩

theorem Spared.untouched {h h' : Heap} (x : Spared (of h.core) h h') : Untouched h h' :=
  ⟨⟨x.up.s, x.up.p, x.up.r⟩, fun s hs => (x.stop s hs).1, fun s hs => (x.stop s hs).2, x.pt, x.route⟩

theorem Untouched.below {h h' : Heap} (x : Untouched h h') : Below h h' :=
  ⟨x.exist.1, x.exist.2.1, x.exist.2.2, x.stop, x.memos, x.plannedTrip, x.route⟩

theorem Spared.below {h h' : Heap} (x : Spared (of h.core) h h') : Below h h' :=
  ⟨x.up.s, x.up.p, x.up.r, fun s hs => (x.stop s hs).1, fun s hs => (x.stop s hs).2, x.pt, x.route⟩

/-- Nothing dangles if what is old was spared and what is new is closed. -/
theorem Spared.noDangling {h h' : Heap} (x : Spared (of h.core) h h') (c : Enclosed (of h.core) h'.core) (nd : NoDangling h.core) :
    NoDangling h'.core where
  previous s hs q e := by
    by_cases hb : s < h.core.nStop
    · rw [(x.stop s hb).1] at e
      exact Nat.lt_of_lt_of_le (nd.previous s hb q e) x.up.s
    · exact ((c.stop s ⟨Nat.not_lt.1 hb, hs⟩).prev q e).2
  pickups s hs q e := by
    by_cases hb : s < h.core.nStop
    · rw [(x.stop s hb).1] at e
      exact Nat.lt_of_lt_of_le (nd.pickups s hb q e) x.up.p
    · exact ((c.stop s ⟨Nat.not_lt.1 hb, hs⟩).picks q e).2
  deliveries s hs q e := by
    by_cases hb : s < h.core.nStop
    · rw [(x.stop s hb).1] at e
      exact Nat.lt_of_lt_of_le (nd.deliveries s hb q e) x.up.p
    · exact ((c.stop s ⟨Nat.not_lt.1 hb, hs⟩).drops q e).2
  pickup s hs q e := by
    by_cases hb : s < h.core.nPt
    · rw [(x.pt s hb).1] at e
      exact Nat.lt_of_lt_of_le (nd.pickup s hb q e) x.up.s
    · exact ((c.pt s ⟨Nat.not_lt.1 hb, hs⟩).pick q e).2
  delivery s hs q e := by
    by_cases hb : s < h.core.nPt
    · rw [(x.pt s hb).1] at e
      exact Nat.lt_of_lt_of_le (nd.delivery s hb q e) x.up.s
    · exact ((c.pt s ⟨Nat.not_lt.1 hb, hs⟩).drop q e).2
  stops s hs q e := by
    by_cases hb : s < h.core.nRoute
    · rw [(x.route s hb).1] at e
      exact Nat.lt_of_lt_of_le (nd.stops s hb q e) x.up.s
    · exact (c.route s ⟨Nat.not_lt.1 hb, hs⟩ q e).2

theorem Enclosed.allNew {h h' : Heap} (c : Enclosed (of h.core) h'.core) {l : List Nat} (hl : ∀ r ∈ l, InR (of h.core) (of h'.core) r) :
    AllNew h h' l where
  route := hl
  stop r hr s hs := c.route r (hl r hr) s hs
  previous r hr s hs q e := ((c.stop s (c.route r (hl r hr) s hs)).prev q e).1
  plannedTrip r hr s hs p hp := by
    have k := c.stop s (c.route r (hl r hr) s hs)
    rcases List.mem_append.1 hp with hp | hp
    · exact k.picks p hp
    · exact k.drops p hp
  ends r hr s hs p hp x e := by
    have k := c.stop s (c.route r (hl r hr) s hs)
    have hp' : InP (of h.core) (of h'.core) p := by
      rcases List.mem_append.1 hp with hp | hp
      · exact k.picks p hp
      · exact k.drops p hp
    rcases e with e | e
    · exact ((c.pt p hp').pick x e).1
    · exact ((c.pt p hp').drop x e).1

theorem isolated_of {h h' : Heap} {x : Except Err (List Nat)} (nd : NoDangling h.core) (s : Spared (of h.core) h h')
    (c : Enclosed (of h.core) h'.core) (hx : ∀ l, x = .ok l → ∀ r ∈ l, InR (of h.core) (of h'.core) r) : Isolated h (x, h') :=
  ⟨s.untouched, s.noDangling c nd, fun l e => c.allNew (hx l e)⟩

/-! ## Local search strategies -/

/-- Any strategy whose `_improve` stays within the region of what it is given. -/
theorem improveWith_isolated {order : List Nat → List Nat} {step : List Nat → M (List Nat)} {rs : List Nat} {h : Heap}
    (hord : ∀ l, ∀ r ∈ order l, r ∈ l) (hstep : ∀ b n l, (∀ r ∈ l, InR b n r) → Foot b n (step l) fun n' l' => ∀ r ∈ l', InR b n' r)
    (nd : NoDangling h.core) (hrs : ∀ r ∈ rs, r < h.core.nRoute) : Isolated h (improveWith E order step rs h) := by
  have hin : ∀ r ∈ order (rs.map (· + h.core.nRoute)), InR (of h.core) (of h.double.core) r := by
    intro r hr
    obtain ⟨q, hq, rfl⟩ := List.mem_map.1 (hord _ r hr)
    have := hrs q hq
    exact ⟨Nat.le_add_left _ _, show q + h.core.nRoute < h.core.nRoute + h.core.nRoute by omega⟩
  have key : Foot (of h.core) (of h.double.core) (do
      Py.forEach (order (rs.map (· + h.core.nRoute))) (checkRoute E)
      let l ← step (order (rs.map (· + h.core.nRoute)))
      Py.forEach l (checkRoute E)
      pure l) fun n' l => ∀ r ∈ l, InR (of h.core) n' r :=
    Foot.then0 (Foot.forEach _ _ fun r hr _ l => Foot.checkRoute ((hin r hr).up l)) fun n1 _ l1 =>
      Foot.bind (hstep _ _ _ fun r hr => (hin r hr).up l1) fun n2 l l2 hl =>
        Foot.then0 (Foot.forEach _ _ fun r hr _ l' => Foot.checkRoute ((hl r hr).up l')) fun n3 _ l3 => Foot.pure fun _ l4 r hr => ((hl r hr).up l3).up l4
  obtain ⟨x, y, z⟩ := key h.double (double_enclosed nd) (Le.refl _)
  exact isolated_of nd ((double_spared h).trans x) y z

/-- C79, reallocation: whatever the order of the copied set and the sampled pairs. -/
theorem C79_reallocation_isolated (k : Objective) (draw : Nat → Nat → Option (List (Nat × Nat))) {order : List Nat → List Nat}
    (hord : ∀ l, ∀ r ∈ order l, r ∈ l) {rs : List Nat} {h : Heap} (nd : NoDangling h.core) (hrs : ∀ r ∈ rs, r < h.core.nRoute) :
    Isolated h (improveWith E order (reallocation E k draw) rs h) :=
  improveWith_isolated hord (fun _ _ _ hl => Foot.reallocation hl) nd hrs

/-- C79, two-opt. -/
theorem C79_two_opt_isolated (k : Objective) {order : List Nat → List Nat} (hord : ∀ l, ∀ r ∈ order l, r ∈ l) {rs : List Nat} {h : Heap}
    (nd : NoDangling h.core) (hrs : ∀ r ∈ rs, r < h.core.nRoute) : Isolated h (improveWith E order (twoOpt E k) rs h) :=
  improveWith_isolated hord (fun _ _ _ hl => Foot.twoOpt hl) nd hrs

/-- C79, one-shift: it changes the routes it is given in place, so everything depends on the copy. -/
theorem C79_one_shift_isolated (k : Objective) {order : List Nat → List Nat} (hord : ∀ l, ∀ r ∈ order l, r ∈ l) {rs : List Nat} {h : Heap}
    (nd : NoDangling h.core) (hrs : ∀ r ∈ rs, r < h.core.nRoute) : Isolated h (improveWith E order (oneShift E k) rs h) :=
  improveWith_isolated hord (fun _ _ _ hl => Foot.oneShift hl) nd hrs

/-! ## Insertion -/

/-- The iterator before its constructor ran, over a heap that is about to be copied. -/
theorem initial_fenced {h h' : Heap} (c : Enclosed (of h.core) h'.core) : Fenced (of h.core) (.initial h') :=
  ⟨c, ⟨fun _ hm => (nomatch hm), fun _ e => (nomatch e), fun _ hm => (nomatch hm), fun _ e => (nomatch e), fun _ e => (nomatch e)⟩⟩

theorem starting_isolated {S : Settings} {initial : Option (List Nat)} {h : Heap} {rest : List Nat → IterM (List Nat)}
    (nd : NoDangling h.core) (hrs : ∀ rs, initial = some rs → ∀ r ∈ rs, r < h.core.nRoute)
    (hrest : ∀ b n l, (∀ r ∈ l, InR b n r) → FootI b n (rest l) fun n' l' => ∀ r ∈ l', InR b n' r) :
    Isolated h (((startingRoutes S initial >>= rest) (.initial h)).1, ((startingRoutes S initial >>= rest) (.initial h)).2.heap) := by
  cases initial with
  | none =>
    obtain ⟨x, y, z⟩ := (FootI.bind (b := of h.core) (n := of h.core) (FootI.newRoutes (S := S)) fun n' l _ hl => hrest _ n' l hl) (.initial h)
      (initial_fenced (nothing_enclosed h)) (Le.refl _)
    exact isolated_of nd x y.heap z
  | some rs =>
    obtain ⟨x, y, z⟩ := hrest (of h.core) (of h.double.core) (rs.map (· + h.core.nRoute)) (by
      intro r hr
      obtain ⟨q, hq, rfl⟩ := List.mem_map.1 hr
      have := hrs rs rfl q hq
      exact ⟨Nat.le_add_left _ _, show q + h.core.nRoute < h.core.nRoute + h.core.nRoute by omega⟩) (.initial h.double)
      (initial_fenced (double_enclosed nd)) (Le.refl _)
    exact isolated_of nd ((double_spared h).trans x) y.heap z

/-- C80, ranking iterator: whatever the settings and the random choices; the orders of sets must list elements of the
sets. -/
theorem C80_insertion_isolated (S : Settings) (ho : ∀ k l, ∀ x ∈ S.order k l, x ∈ l) (initial : Option (List Nat)) (fuel : Nat) {h : Heap}
    (nd : NoDangling h.core) (hrs : ∀ rs, initial = some rs → ∀ r ∈ rs, r < h.core.nRoute) :
    Isolated h ((insertionAlgorithm S initial fuel (.initial h)).1, (insertionAlgorithm S initial fuel (.initial h)).2.heap) := by
  have e : insertionAlgorithm S initial fuel (.initial h) = (startingRoutes S initial >>= fun rs => do
      FootI.fillContainer S initial rs
      initializeRanking S
      insertionLoop S (nextRanked S) (markRanked S) fuel
      iterRoutes S) (.initial h) := by
    unfold insertionAlgorithm rankingInit iteratorInit
    rw [Py.bind_assoc_run, Py.bind_assoc_run]
    rfl
  rw [e]
  exact starting_isolated nd hrs fun _ _ _ hl => FootI.rankingRest ho hl

/-- C80, stateless iterator. -/
theorem C80_stateless_isolated (S : Settings) (ho : ∀ k l, ∀ x ∈ S.order k l, x ∈ l) (initial : Option (List Nat)) (fuel : Nat) {h : Heap}
    (nd : NoDangling h.core) (hrs : ∀ rs, initial = some rs → ∀ r ∈ rs, r < h.core.nRoute) :
    Isolated h ((statelessAlgorithm S initial fuel (.initial h)).1, (statelessAlgorithm S initial fuel (.initial h)).2.heap) := by
  have e : statelessAlgorithm S initial fuel (.initial h) = (startingRoutes S initial >>= fun rs => do
      FootI.fillContainer S initial rs
      insertionLoop S (nextStateless S) markStateless fuel
      iterRoutes S) (.initial h) := by
    unfold statelessAlgorithm iteratorInit
    rw [Py.bind_assoc_run]
    rfl
  rw [e]
  exact starting_isolated nd hrs fun _ _ _ hl => FootI.statelessRest ho hl

/-! ## A case -/

/-- Two routes on which reallocation finds a move. -/
theorem swap2_noDangling : NoDangling swap2.core where
  previous := by decide +kernel
  pickups := by decide +kernel
  deliveries := by decide +kernel
  pickup := by decide +kernel
  delivery := by decide +kernel
  stops := by decide +kernel

example : Isolated swap2 (.ok [6, 7], swap3) := by
  rw [← swap_run]
  exact C79_reallocation_isolated .dialARide allPairs (fun _ _ h => h) swap2_noDangling (by decide +kernel)

/-- One-shift on the same routes. -/
example : Isolated swap2 (improveWith swapEnv id (oneShift swapEnv .dialARide) [0, 1] swap2) :=
  C79_one_shift_isolated .dialARide (fun _ _ h => h) swap2_noDangling (by decide +kernel)

theorem empty_noDangling : NoDangling Heap.empty.core where
  previous := by decide
  pickups := by decide
  deliveries := by decide
  pickup := by decide
  delivery := by decide
  stops := by decide

/-- A second run of insertion, with other settings, that starts from the routes of a first one. -/
theorem C80_second_run {S S' : Settings} (ho : ∀ k l, ∀ x ∈ S.order k l, x ∈ l) (ho' : ∀ k l, ∀ x ∈ S'.order k l, x ∈ l) {initial : Option (List Nat)}
    {fuel : Nat} (fuel' : Nat) {h : Heap} {l : List Nat} {s : IterState} (nd : NoDangling h.core) (hrs : ∀ rs, initial = some rs → ∀ r ∈ rs, r < h.core.nRoute)
    (e : insertionAlgorithm S initial fuel (.initial h) = (.ok l, s)) :
    Isolated h (.ok l, s.heap) ∧ Isolated s.heap ((insertionAlgorithm S' (some l) fuel' (.initial s.heap)).1,
      (insertionAlgorithm S' (some l) fuel' (.initial s.heap)).2.heap) := by
  have a := C80_insertion_isolated S ho initial fuel nd hrs
  rw [e] at a
  exact ⟨a, C80_insertion_isolated S' ho' (some l) fuel' a.noDangling fun rs e r hr => by
    cases e
    exact (a.allNew l rfl).route r hr |>.2⟩

/-- From nothing, and again from the route that was found. -/
example : Isolated .empty (.ok [3], tightRun.2.heap) ∧ Isolated tightRun.2.heap
    ((insertionAlgorithm tightSettings (some [3]) 4 (.initial tightRun.2.heap)).1, (insertionAlgorithm tightSettings (some [3]) 4 (.initial tightRun.2.heap)).2.heap) :=
  C80_second_run (fun _ _ _ h => h) (fun _ _ _ h => h) (initial := none) 4 empty_noDangling (fun _ e => (nomatch e)) tightRun_eq

end Jinete
