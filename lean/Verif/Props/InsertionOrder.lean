import Verif.Props.SetOrder
import Verif.Props.Insertion

/-!
# C129: the insertion algorithm and the order in which sets are iterated
-/

set_option autoImplicit false

namespace Jinete

/-- The claim in full: with `randomized_size = 1`, two runs on the same trips and vehicles, with the same arguments, that differ in
the order in which sets are iterated end with plannings of the same value. -/
def InsertionIgnoresOrder : Prop :=
  ∀ (S : Settings) (o o' : Nat → List Nat → List Nat) (k : Objective) (fuel : Nat) (l l' : List Nat) (s s' : IterState)
    (v v' : List ℚ) (h h' : Heap), EnvOK S.env → S.randomized = 1 → S.strategy = .intensive →
    Fair { S with order := o } → Fair { S with order := o' } → Clean { S with order := o } →
    insertionAlgorithm { S with order := o } none fuel (.initial .empty) = (.ok l, s) →
    insertionAlgorithm { S with order := o' } none fuel (.initial .empty) = (.ok l', s') →
    k.planning S.env l s.heap = (.ok v, h) → k.planning S.env l' s'.heap = (.ok v', h') → v = v'

/-- Every candidate of the one state has one of the same vehicle with the same verdict and the same visits in the other. -/
def SameCandidates (E : Env) (s s' : IterState) : Prop :=
  ∀ v q, RankedFor s v q → ∃ v' q', RankedFor s' v' q' ∧ (SaysFeasible E s.heap q ↔ SaysFeasible E s'.heap q') ∧
    (s.heap.core.route q).vehicle = (s'.heap.core.route q').vehicle ∧ EqualTours (itinerary s.heap.core q) (itinerary s'.heap.core q')

/-- **C129**, what holds: in states of two runs whose candidates are the same up to the order of sets, `next` returns routes with the same
verdict and, if they are feasible, the same score. -/
theorem C129_next_partial {S S' : Settings} {h h' : Heap} {initial initial' : Option (List Nat)} (hE : EnvOK S.env) (henv : S'.env = S.env)
    (hcr : S'.criterion = S.criterion) (hF : Fair S) (hF' : Fair S') (hc : Clean S) (hc' : Clean S') (hn : S.randomized = 1)
    (hn' : S'.randomized = 1) (hs : ∀ rs, initial = some rs → Startable S h rs) (hs' : ∀ rs, initial' = some rs → Startable S' h' rs)
    {s s1 s' s1' : IterState} {r r' : Nat} (run : RankedRun S h initial s) (run' : RankedRun S' h' initial' s')
    (e : nextRanked S s = (.ok r, s1)) (e' : nextRanked S' s' = (.ok r', s1')) (same : SameCandidates S.env s s')
    (same' : SameCandidates S.env s' s) :
    (SaysFeasible S.env s.heap r ↔ SaysFeasible S.env s'.heap r') ∧
    (SaysFeasible S.env s.heap r →
      criterionValue S.env (S.env.vehicle (s.heap.core.route r).vehicle) (itinerary s.heap.core r) S.criterion =
      criterionValue S.env (S.env.vehicle (s'.heap.core.route r').vehicle) (itinerary s'.heap.core r') S.criterion) := by
  obtain ⟨⟨v, hv⟩, g⟩ := C30_greedy hE hF hc hn hs run e
  obtain ⟨⟨v', hv'⟩, g'⟩ := C30_greedy (henv ▸ hE) hF' hc' hn' hs' run' e'
  obtain ⟨w', q', hq', f', t1', t2'⟩ := same v r hv
  obtain ⟨w, q, hq, f, t1, t2⟩ := same' v' r' hv'
  have b := g w q hq
  have b' := g' w' q' hq'
  unfold GoodAs at b b'
  rw [henv, hcr, ← t1', ← t2'.criterionValue_eq, ← f'] at b'
  rw [← t1, ← t2.criterionValue_eq, ← f] at b
  refine ⟨⟨fun x => (b' x).1, fun x => (b x).1⟩, fun x => ?_⟩
  have a1 := (b' x).2
  have a2 := (b (b' x).1).2
  revert a1 a2
  cases S.criterion <;> exact fun a1 a2 => le_antisymm (by first | exact a1 | exact a2) (by first | exact a2 | exact a1)

/-- One vehicle at 0 that has 6 minutes. Trip 0 is on one side; trip 1, as far, is on the other one; trip 2 is behind trip 0. -/
def sidesEnv : Env where
  metric := manhattan
  trip := fun t => if t = 0 then { origin := { position := [1] }, destination := { position := [2] } }
    else if t = 1 then { origin := { position := [-1] }, destination := { position := [-2] } }
    else { origin := { position := [2] }, destination := { position := [3] } }
  vehicle := fun _ => { origin := { position := [0] }, capacity := 1, timeout := .fin 6 }

theorem sidesEnv_ok : EnvOK sidesEnv where
  metric := fun a b => manhattan_nonneg a b
  originDuration := by intro t; simp only [sidesEnv]; split_ifs <;> simp
  destinationDuration := by intro t; simp only [sidesEnv]; split_ifs <;> simp
  capacity := by intro t; simp only [sidesEnv]; split_ifs <;> simp

/-- Sets as they are, or from their end. -/
def sidesSettings (o : Nat → List Nat → List Nat) : Settings :=
  { plainSettings sidesEnv [0] [0, 1, 2] .intensive 1 with order := o }



theorem sidesSettings_fair {o : Nat → List Nat → List Nat} (ho : ∀ k l, (o k l).Perm l) : Fair (sidesSettings o) where
  order := ho
  choice _ _ h := h
  rnd _ _ _ h := nomatch h

/-- The run in the order given. -/
def sidesRun : Except Err (List Nat) × IterState := insertionAlgorithm (sidesSettings fun _ l => l) none 4 (.initial .empty)
/-- The run in the opposite order. -/
def sidesRun' : Except Err (List Nat) × IterState := insertionAlgorithm (sidesSettings fun _ l => l.reverse) none 4 (.initial .empty)

/-- C129 is false: of two trips that are as good for the first choice, the one that comes first is taken; a third trip
only fits with one of them. -/
theorem C129_order_matters : ¬ InsertionIgnoresOrder := by
  intro hp
  have := hp (sidesSettings fun _ l => l) (fun _ l => l) (fun _ l => l.reverse) .dialARide 4 [15] [2] sidesRun.2 sidesRun'.2
    [2, -6] [1, -4] (Objective.dialARide.planning sidesEnv [15] sidesRun.2.heap).2
    (Objective.dialARide.planning sidesEnv [2] sidesRun'.2.heap).2 sidesEnv_ok rfl rfl
    (sidesSettings_fair fun _ l => List.Perm.refl l) (sidesSettings_fair fun _ l => l.reverse_perm) ⟨by decide, by decide⟩
    (eq_of_fst (by decide +kernel)) (eq_of_fst (by decide +kernel)) (eq_of_fst (by decide +kernel)) (eq_of_fst (by decide +kernel))
  exact absurd this (by decide)

/-- The states after construction, in both orders. -/
def sides0 : IterState := (rankingInit (sidesSettings fun _ l => l) none (.initial .empty)).2
/-- The same in the opposite order. -/
def sides0' : IterState := (rankingInit (sidesSettings fun _ l => l.reverse) none (.initial .empty)).2

theorem sides0_eq : rankingInit (sidesSettings fun _ l => l) none (.initial .empty) = (.ok (), sides0) := eq_of_fst (by decide +kernel)
theorem sides0'_eq : rankingInit (sidesSettings fun _ l => l.reverse) none (.initial .empty) = (.ok (), sides0') :=
  eq_of_fst (by decide +kernel)

/-- Visits that are computed to be equal. -/
def equalVisitB (v w : Visit) : Bool := decide (v.pos = w.pos ∧ v.request = w.request) && (v.picks.isPerm w.picks && v.drops.isPerm w.drops)

theorem equalVisitB_sound : ∀ {l m : List Visit}, (l.length = m.length ∧ (l.zip m).all (fun x => equalVisitB x.1 x.2) = true) → EqualTours l m
  | [], [], _ => .nil
  | [], _ :: _, h => by simp at h
  | _ :: _, [], h => by simp at h
  | v :: l, w :: m, h => by
    simp only [List.zip_cons_cons, List.all_cons, Bool.and_eq_true, List.length_cons, Nat.add_right_cancel_iff] at h
    obtain ⟨h0, h1, h2⟩ := h
    unfold equalVisitB at h1
    simp only [Bool.and_eq_true, decide_eq_true_eq] at h1
    exact .cons ⟨h1.1.1, h1.1.2, List.isPerm_iff.1 h1.2.1, List.isPerm_iff.1 h1.2.2⟩ (equalVisitB_sound ⟨h0, h2⟩)

/-- C129 on the first choices of the two runs: trip 0 in the one order, trip 1 in the other, for the same time. -/
example : (nextRanked (sidesSettings fun _ l => l) sides0).1 = .ok 1 ∧ (nextRanked (sidesSettings fun _ l => l.reverse) sides0').1 = .ok 2 ∧
    tripsOf sides0.heap.core 1 = [0] ∧ tripsOf sides0'.heap.core 2 = [1] ∧
    (SaysFeasible sidesEnv sides0.heap 1 →
      criterionValue sidesEnv (sidesEnv.vehicle 0) (itinerary sides0.heap.core 1) .shortestTime =
      criterionValue sidesEnv (sidesEnv.vehicle 0) (itinerary sides0'.heap.core 2) .shortestTime) := by
  have n : nextRanked (sidesSettings fun _ l => l) sides0 = (.ok 1, (nextRanked (sidesSettings fun _ l => l) sides0).2) :=
    eq_of_fst (by decide +kernel)
  have n' : nextRanked (sidesSettings fun _ l => l.reverse) sides0' = (.ok 2, (nextRanked (sidesSettings fun _ l => l.reverse) sides0').2) :=
    eq_of_fst (by decide +kernel)
  refine ⟨congrArg Prod.fst n, congrArg Prod.fst n', by decide +kernel, by decide +kernel, ?_⟩
  have rk : sides0.ranking = [(0, [1, 2, 3])] := by decide +kernel
  have rk' : sides0'.ranking = [(0, [2, 3, 1])] := by decide +kernel
  have partners : ∀ q ∈ [1, 2, 3], (routeFeasible sidesEnv q sides0.heap).1 = (routeFeasible sidesEnv (4 - q) sides0'.heap).1 ∧
      (sides0.heap.core.route q).vehicle = (sides0'.heap.core.route (4 - q)).vehicle ∧
      EqualTours (itinerary sides0.heap.core q) (itinerary sides0'.heap.core (4 - q)) := by
    intro q hq
    refine ⟨?_, ?_, equalVisitB_sound ?_⟩ <;> revert q hq <;> decide +kernel
  have r1 : ∀ v q, RankedFor sides0 v q → q ∈ [1, 2, 3] := by
    rintro v q ⟨l, hl, hq⟩
    rw [rk, List.mem_singleton] at hl
    obtain ⟨rfl, rfl⟩ := Prod.mk.inj hl
    exact hq
  have r1' : ∀ v q, RankedFor sides0' v q → q ∈ [2, 3, 1] := by
    rintro v q ⟨l, hl, hq⟩
    rw [rk', List.mem_singleton] at hl
    obtain ⟨rfl, rfl⟩ := Prod.mk.inj hl
    exact hq
  refine (C129_next_partial (S := sidesSettings fun _ l => l) (S' := sidesSettings fun _ l => l.reverse) (initial := none) (initial' := none) sidesEnv_ok rfl rfl
    (sidesSettings_fair fun _ l => List.Perm.refl l) (sidesSettings_fair fun _ l => l.reverse_perm) ⟨by decide, by decide⟩ ⟨by decide, by decide⟩
    rfl rfl (fun _ h => nomatch h) (fun _ h => nomatch h) (.init sides0_eq) (.init sides0'_eq) n n' ?_ ?_).2
  · intro v q hq
    obtain ⟨a, b, c⟩ := partners q (r1 v q hq)
    refine ⟨0, 4 - q, ⟨[2, 3, 1], by rw [rk']; simp, ?_⟩, by unfold SaysFeasible; rw [show (sidesSettings fun _ l => l).env = sidesEnv from rfl, a], b, c⟩
    have := r1 v q hq
    simp only [List.mem_cons, List.not_mem_nil, or_false] at this ⊢
    omega
  · intro v q hq
    have hm := r1' v q hq
    simp only [List.mem_cons, List.not_mem_nil, or_false] at hm
    have h4 : 4 - q ∈ [1, 2, 3] := by simp only [List.mem_cons, List.not_mem_nil, or_false]; omega
    obtain ⟨a, b, c⟩ := partners (4 - q) h4
    rw [show 4 - (4 - q) = q by omega] at a b c
    refine ⟨0, 4 - q, ⟨[1, 2, 3], by rw [rk]; simp, h4⟩, by unfold SaysFeasible; rw [show (sidesSettings fun _ l => l).env = sidesEnv from rfl, a], b.symm, c.symm⟩

end Jinete
