import Verif.Proofs.MilpFollow
import Verif.Proofs.Compute

/-!
# The routes of all vehicles of a solution
-/

set_option autoImplicit false

namespace Jinete

variable {E : Env} {vs ts : List Nat} {a : Assignment}

/-- A route with an itinerary and nothing memoised. -/
structure Made (h : Heap) (r veh : Nat) (l : List Visit) : Prop where
  wf : WellFormed h.core r
  blank : ∀ s ∈ (h.core.route r).stops, Blank h s
  verdicts : NoVerdicts h r
  vehicle : (h.core.route r).vehicle = veh
  itin : itinerary h.core r = l

theorem NewRoute.made {h h' : Heap} {veh : Nat} {l : List Visit} (n : NewRoute E h h' veh l) : Made h' h.core.nRoute veh l :=
  ⟨n.wf, n.blank, n.verdicts, n.vehicle, n.itin⟩

theorem Made.agree {h : Heap} {r veh : Nat} {l : List Visit} (m : Made h r veh l) : CachesAgree E h r :=
  (cachesAgree_iff m.wf.toChained).2 fun s hs => (m.blank s hs).coh

/-- Later work on other objects changes nothing. -/
theorem Made.below {h h' : Heap} {r veh : Nat} {l : List Visit} (m : Made h r veh l) (b : Below h h') : Made h' r veh l := by
  have k : Keeps (· = r) h h' := b.keeps fun q hq => hq ▸ m.wf
  have hr : h'.core.route r = h.core.route r := k.route r rfl
  have hst : ∀ s ∈ (h.core.route r).stops, h'.core.stop s = h.core.stop s := k.stop r rfl
  have hal : ∀ s ∈ (h.core.route r).stops, s < h.core.nStop := m.wf.alloc
  refine ⟨k.core.wf rfl m.wf, ?_, ⟨?_, ?_, ?_⟩, ?_, ?_⟩
  · intro s hs
    rw [hr] at hs
    obtain ⟨c1, c2, c3, _⟩ := b.caches s (hal s hs)
    have := m.blank s hs
    exact ⟨c1.trans this.arr, c2.trans this.dep, c3.trans this.cap⟩
  · rw [(b.route r m.wf.exists_).2]; exact m.verdicts.route
  · intro s hs
    rw [hr] at hs
    rw [(b.caches s (hal s hs)).2.2.2]; exact m.verdicts.stops s hs
  · intro s hs p hp
    rw [hr] at hs
    rw [hst s hs] at hp
    rw [(b.pt p (m.wf.ptsAt_alloc hs (List.mem_append_left _ hp))).2]
    exact m.verdicts.trips s hs p hp
  · rw [hr]; exact m.vehicle
  · rw [← m.itin]
    unfold itinerary
    rw [hr]
    refine List.map_congr_left fun s hs => ?_
    unfold visitOf
    rw [hst s hs]
    congr 1
    · exact List.map_congr_left fun p hp => by rw [k.pt r rfl s hs p (List.mem_append_left _ hp)]
    · exact List.map_congr_left fun p hp => by rw [k.pt r rfl s hs p (List.mem_append_right _ hp)]

theorem decodeEach_run (vis : Nat → Nat → List Visit) : ∀ (L : List (Nat × Nat)) (h : Heap),
    (∀ vk ∈ L, ∀ h : Heap, ∃ h', decodeRoute E vs ts a vk.2 vk.1 h = (.ok h.core.nRoute, h') ∧
      NewRoute E h h' vk.1 (vis vk.1 vk.2)) →
    ∃ h', Py.mapEach L (fun vk => decodeRoute E vs ts a vk.2 vk.1) h = (.ok (List.range' h.core.nRoute L.length), h') ∧
      Below h h' ∧ h'.core.nRoute = h.core.nRoute + L.length ∧
      ∀ i (hi : i < L.length), Made h' (h.core.nRoute + i) L[i].1 (vis L[i].1 L[i].2) := by
  intro L
  induction L with
  | nil =>
    intro h _
    refine ⟨h, rfl, Below.of_above (Above.refl _ _ _ _), rfl, fun i hi => absurd hi (by simp)⟩
  | cons vk L ih =>
    intro h hL
    obtain ⟨h1, r1, n1⟩ := hL vk (by simp) h
    obtain ⟨h2, r2, b2, c2, m2⟩ := ih h1 fun x hx => hL x (List.mem_cons_of_mem _ hx)
    refine ⟨h2, ?_, n1.below.trans b2, ?_, ?_⟩
    · rw [Py.mapEach, Py.bind_ok r1, Py.bind_ok r2, n1.count]
      rfl
    · rw [c2, n1.count, List.length_cons]; omega
    · intro i hi
      cases i with
      | zero => exact n1.made.below b2
      | succ i =>
        have := m2 i (by simpa using hi)
        rw [n1.count] at this
        have e : h.core.nRoute + (i + 1) = h.core.nRoute + 1 + i := by omega
        rw [e]
        exact this

theorem validates_of_solves (h : (milpOf E vs ts).solves a = true) : (milpOf E vs ts).validates a = true := by
  have hs := (Milp.solves_iff a).1 h
  unfold Milp.validates Milp.routesIdx Milp.positionsIdx
  simp only [List.all_eq_true, List.mem_range, Bool.and_eq_true, decide_eq_true_eq]
  intro k hk i hi
  refine ⟨⟨hs.u_nonneg k hk i hi, hs.w_nonneg k hk i hi⟩, fun j hj => ?_⟩
  rcases hs.bin k hk i hi j hj with e | e <;> rw [e] <;> norm_num

/-- The routes of a solution. -/
theorem milpOptimize_run {vis : Nat → Nat → List Visit} (h : Heap) (hs : (milpOf E vs ts).solves a = true)
    (hdec : ∀ k (hk : k < vs.length), ∀ h : Heap, ∃ h', decodeRoute E vs ts a k vs[k] h = (.ok h.core.nRoute, h') ∧
      NewRoute E h h' vs[k] (vis vs[k] k)) :
    ∃ h', milpOptimize E vs ts a h = (.ok (List.range' h.core.nRoute vs.length), h') ∧ Below h h' ∧
      h'.core.nRoute = h.core.nRoute + vs.length ∧
      ∀ k (hk : k < vs.length), Made h' (h.core.nRoute + k) vs[k] (vis vs[k] k) := by
  obtain ⟨h', run, b, c, m⟩ := decodeEach_run (E := E) (vs := vs) (ts := ts) (a := a) vis vs.zipIdx h (by
    intro vk hvk h
    obtain ⟨k, hk, e⟩ := List.getElem_of_mem hvk
    have hk' : k < vs.length := by simpa using hk
    rw [List.getElem_zipIdx] at e
    rw [← e]
    simpa using hdec k hk' h)
  refine ⟨h', ?_, b, ?_, ?_⟩
  · unfold milpOptimize
    rw [validates_of_solves hs, Py.bind_ok (Py.assert_true _)]
    unfold decodeRoutes
    rw [run, List.length_zipIdx]
  · rw [c, List.length_zipIdx]
  · intro k hk
    have := m k (by simpa using hk)
    simpa [List.getElem_zipIdx] using this

end Jinete
