import Verif.Model.Hash
import Mathlib.Data.List.Forall2
import Mathlib.Tactic.NormNum
import Mathlib.Logic.Equiv.List

/-!
# C110: equality of positions and services
-/

set_option autoImplicit false

namespace Jinete

variable {H : Hashing}

theorem numberHash_int {n : Int} (h : n.natAbs < hashModulus) : numberHash n = if n = -1 then -2 else n := by
  have hm : 1 < hashModulus := by decide
  have e1 : ((n : ℚ).num) = n := Rat.num_intCast n
  have e2 : ((n : ℚ).den) = 1 := Rat.den_intCast n
  unfold numberHash
  have e3 : hashInverse 1 = 1 := by
    unfold hashInverse
    exact if_pos rfl
  rw [e1, e2]
  dsimp only
  rw [Nat.mod_eq_of_lt hm, if_neg Nat.one_ne_zero, e3, mul_one, Nat.mod_mod, Nat.mod_eq_of_lt h]
  have : (if n < 0 then -((n.natAbs : Nat) : Int) else (n.natAbs : Int)) = n := by
    split <;> omega
  rw [this]

/-- The tuples of hashes that are hashed when the hash of a service is computed. -/
def Hashing.tuplesOf (H : Hashing) (s : Service) : List (List Int) :=
  let pos := s.position.map numberHash
  let parts := [[H.string "position", H.tuple pos], [H.string "earliest", numberHash s.earliest], [H.string "latest", boundHash s.latest],
    [H.string "duration", numberHash s.duration]]
  pos :: parts.map H.tuple :: parts

/-- The hash of tuples has no collisions when the two services are compared. -/
def Hashing.NoCollision (H : Hashing) (s s' : Service) : Prop := ∀ l ∈ H.tuplesOf s, ∀ l' ∈ H.tuplesOf s', H.tuple l = H.tuple l' → l = l'

/-- The numbers of the service are integers, and not huge. -/
structure Service.Small (s : Service) : Prop where
  position : ∀ q ∈ s.position, ∃ n : Int, q = n ∧ n.natAbs < hashModulus
  earliest : ∃ n : Int, s.earliest = n ∧ n.natAbs < hashModulus
  latest : ∀ q, s.latest = .fin q → ∃ n : Int, q = n ∧ n.natAbs < hashModulus ∧ n ≠ 314159
  duration : ∃ n : Int, s.duration = n ∧ n.natAbs < hashModulus

/-- The same number, except that -1 is taken for -2. -/
def Alike (q q' : ℚ) : Prop := q = q' ∨ (q = -1 ∧ q' = -2) ∨ (q = -2 ∧ q' = -1)

/-- The same for bounds. -/
def AlikeBound : Bound → Bound → Prop
  | .fin q, .fin q' => Alike q q'
  | .inf, .inf => True
  | _, _ => False

theorem numberHash_alike {q q' : ℚ} (h : ∃ n : Int, q = n ∧ n.natAbs < hashModulus) (h' : ∃ n : Int, q' = n ∧ n.natAbs < hashModulus) :
    numberHash q = numberHash q' ↔ Alike q q' := by
  obtain ⟨n, rfl, hn⟩ := h
  obtain ⟨n', rfl, hn'⟩ := h'
  rw [numberHash_int hn, numberHash_int hn']
  unfold Alike
  norm_cast
  split <;> split <;> omega

theorem boundHash_alike {b b' : Bound} (h : ∀ q, b = .fin q → ∃ n : Int, q = n ∧ n.natAbs < hashModulus ∧ n ≠ 314159)
    (h' : ∀ q, b' = .fin q → ∃ n : Int, q = n ∧ n.natAbs < hashModulus ∧ n ≠ 314159) : boundHash b = boundHash b' ↔ AlikeBound b b' := by
  cases b with
  | fin q =>
    obtain ⟨n, e, hn, hi⟩ := h q rfl
    cases b' with
    | fin q' =>
      obtain ⟨n', e', hn', _⟩ := h' q' rfl
      exact numberHash_alike ⟨n, e, hn⟩ ⟨n', e', hn'⟩
    | inf =>
      subst e
      simp only [boundHash, AlikeBound, numberHash_int hn, iff_false]
      split <;> omega
  | inf =>
    cases b' with
    | fin q' =>
      obtain ⟨n', e', hn', hi'⟩ := h' q' rfl
      subst e'
      simp only [boundHash, AlikeBound, numberHash_int hn', iff_false]
      split <;> omega
    | inf => simp [boundHash, AlikeBound]

/-- **C110, positions.** Positions are equal exactly if they have the same coordinates, and equal positions have equal hashes. -/
theorem C110_positions (p q : Pos) : (positionEq p q = true ↔ p = q) ∧ (positionEq p q = true → positionHash H p = positionHash H q) := by
  unfold positionEq
  refine ⟨by simp, fun h => ?_⟩
  rw [of_decide_eq_true h]

/-- **C110, part.** Equality of services is reflexive, symmetric and transitive and agrees with their hashes, and services with the same data are
equal. If the hash of tuples has no collisions on the way, services with integer data (less than `2 ^ 61 - 1`, and no closing time at the hash of infinity) are equal exactly
if they have the same data except that -1 and -2 are confused. Missing: that equal services have the same data. -/
theorem C110_services_partial :
    (∀ s, serviceEq H s s = true) ∧ (∀ s s', serviceEq H s s' = true → serviceEq H s' s = true) ∧
    (∀ s s' s'', serviceEq H s s' = true → serviceEq H s' s'' = true → serviceEq H s s'' = true) ∧
    (∀ s s', serviceEq H s s' = true ↔ serviceHash H s = serviceHash H s') ∧
    (∀ s s' : Service, H.NoCollision s s' → s.Small → s'.Small → (serviceEq H s s' = true ↔
      List.Forall₂ Alike s.position s'.position ∧ Alike s.earliest s'.earliest ∧ AlikeBound s.latest s'.latest ∧ Alike s.duration s'.duration)) := by
  unfold serviceEq
  refine ⟨by simp, by simp +contextual, by simp +contextual, by simp, fun s s' hH hs hs' => ?_⟩
  have h1 : s.position.map numberHash = s'.position.map numberHash ↔ List.Forall₂ Alike s.position s'.position := by
    have hp := hs.position
    have hp' := hs'.position
    generalize s.position = p at hp
    generalize s'.position = p' at hp'
    induction p generalizing p' with
    | nil => cases p' <;> simp
    | cons a p ih =>
      cases p' with
      | nil => simp
      | cons b p' =>
        have e := ih (fun q hq => hp q (by simp [hq])) p' (fun q hq => hp' q (by simp [hq]))
        rw [List.map_cons, List.map_cons, List.cons.injEq, List.forall₂_cons]
        exact and_congr (numberHash_alike (hp a (by simp)) (hp' b (by simp))) e
  have h2 : ∀ l ∈ H.tuplesOf s, ∀ l' ∈ H.tuplesOf s', (H.tuple l = H.tuple l' ↔ l = l') := fun l hl l' hl' => ⟨hH l hl l' hl', fun h => by rw [h]⟩
  rw [decide_eq_true_iff]
  unfold serviceHash pairHash positionHash
  rw [h2 _ (by simp [Hashing.tuplesOf]) _ (by simp [Hashing.tuplesOf])]
  simp only [List.cons.injEq, and_true]
  rw [h2 _ (by simp [Hashing.tuplesOf]) _ (by simp [Hashing.tuplesOf]), h2 [H.string "earliest", _] (by simp [Hashing.tuplesOf]) _ (by simp [Hashing.tuplesOf]),
    h2 [H.string "latest", _] (by simp [Hashing.tuplesOf]) _ (by simp [Hashing.tuplesOf]), h2 [H.string "duration", _] (by simp [Hashing.tuplesOf]) _ (by simp [Hashing.tuplesOf])]
  simp only [List.cons.injEq, and_true, true_and]
  rw [h2 _ (by simp [Hashing.tuplesOf]) _ (by simp [Hashing.tuplesOf]), h1, numberHash_alike hs.earliest hs'.earliest,
    boundHash_alike hs.latest hs'.latest, numberHash_alike hs.duration hs'.duration]

/-- The full claim: equal services have the same data. -/
def EqualServicesSame (H : Hashing) : Prop := ∀ s s', serviceEq H s s' = true → s = s'

/-- **C110, the claim fails.** However tuples and strings are hashed, two services one of which is at a position with coordinate -1 and the
other at one with -2 are equal. -/
theorem C110_claim_fails (H : Hashing) : ¬ EqualServicesSame H := by
  intro h
  have e : numberHash (-1) = numberHash (-2) := by
    have h1 := numberHash_int (n := -1) (by decide)
    have h2 := numberHash_int (n := -2) (by decide)
    push_cast at h1 h2
    rw [h1, h2]
  have := h { position := [-1, 3] } { position := [-2, 3] } (by simp [serviceEq, serviceHash, positionHash, e])
  exact absurd (congrArg Service.position this) (by decide +kernel)

theorem small_example (x : Int) (h : x.natAbs < 10) : (Service.mk [x, 4] 3 (.fin 50) 1).Small := by
  refine ⟨?_, ⟨3, by norm_num, by decide⟩, ?_, ⟨1, by norm_num, by decide⟩⟩
  · intro q hq
    rcases (by simpa using hq : q = x ∨ q = 4) with rfl | rfl
    · exact ⟨x, rfl, h.trans (by decide)⟩
    · exact ⟨4, by norm_num, by decide⟩
  · intro q hq
    obtain rfl : (50 : ℚ) = q := Bound.fin.inj hq
    exact ⟨50, by norm_num, by decide, by decide⟩

/-- Services at different positions are not equal, with hashes that have no collisions on the way. -/
example : ∃ H : Hashing, serviceEq H ⟨[1, 4], 3, .fin 50, 1⟩ ⟨[2, 4], 3, .fin 50, 1⟩ = false ∧ serviceEq H ⟨[-1, 4], 3, .fin 50, 1⟩ ⟨[-2, 4], 3, .fin 50, 1⟩ = true := by
  obtain ⟨f, hf⟩ := exists_injective_nat (List Int)
  let H : Hashing := ⟨fun _ => 0, fun l => f l⟩
  have hH : ∀ s s', H.NoCollision s s' := fun _ _ l _ l' _ h => hf (Int.ofNat.inj h)
  refine ⟨H, ?_, ?_⟩
  · rw [← Bool.not_eq_true]
    have := C110_services_partial.2.2.2.2 _ _ (hH _ _) (small_example 1 (by decide)) (small_example 2 (by decide))
    push_cast at this
    rw [this]
    rintro ⟨h, _⟩
    rcases List.forall₂_cons.1 h with ⟨h | h | h, _⟩ <;> norm_num at h
  · have := C110_services_partial.2.2.2.2 _ _ (hH _ _) (small_example (-1) (by decide)) (small_example (-2) (by decide))
    push_cast at this
    rw [this]
    exact ⟨.cons (.inr (.inl ⟨rfl, rfl⟩)) (.cons (.inl rfl) .nil), .inl rfl, .inl rfl, .inl rfl⟩

end Jinete
