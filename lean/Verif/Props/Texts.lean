import Verif.Props.Show
import Verif.Props.File

/-!
# C108, C109: texts of vehicles, trips, routes and services
-/

set_option autoImplicit false

namespace Jinete

/-- A character that can occur in a number. -/
def NumberChar (c : Char) : Prop := (∃ d < 10, c = digitChar d) ∨ c ∈ ['_', '.', '+', '-', 'e', 'E']

theorem DigitText.char {t : Text} {ds : List Nat} (h : DigitText t ds) : t ≠ [] ∧ ∀ c ∈ t, NumberChar c := by
  induction h with
  | one d hd => exact ⟨by simp, fun c hc => .inl ⟨d, hd, by simpa using hc⟩⟩
  | next d hd _ ih =>
    refine ⟨by simp, fun c hc => ?_⟩
    rcases List.mem_cons.1 hc with rfl | hc
    · exact .inl ⟨d, hd, rfl⟩
    · exact ih.2 c hc
  | sep d hd _ ih =>
    refine ⟨by simp, fun c hc => ?_⟩
    rcases List.mem_cons.1 hc with rfl | hc
    · exact .inl ⟨d, hd, rfl⟩
    · rcases List.mem_cons.1 hc with rfl | hc
      · exact .inr (by simp)
      · exact ih.2 c hc

theorem SignText.char {t : Text} {g : Int} (h : SignText t g) : ∀ c ∈ t, NumberChar c := by
  intro c hc
  cases h with
  | none => simp at hc
  | plus => exact .inr (by simp_all)
  | minus => exact .inr (by simp_all)

theorem NumberText.char {t : Text} {q : ℚ} (h : NumberText t q) : t ≠ [] ∧ ∀ c ∈ t, NumberChar c := by
  obtain ⟨s, g, m, a, x, e, rfl, hs, hm, hx, _⟩ := h
  have h1 : m ≠ [] ∧ ∀ c ∈ m, NumberChar c := by
    cases hm with
    | int h => exact h.char
    | point h =>
      refine ⟨by simp, fun c hc => ?_⟩
      rcases List.mem_append.1 hc with hc | hc
      · exact h.char.2 c hc
      · exact .inr (by simp_all)
    | frac h h' =>
      refine ⟨by simp, fun c hc => ?_⟩
      rcases List.mem_append.1 hc with hc | hc
      · exact h.char.2 c hc
      · rcases List.mem_cons.1 hc with rfl | hc
        · exact .inr (by simp)
        · exact h'.char.2 c hc
    | small h =>
      refine ⟨by simp, fun c hc => ?_⟩
      rcases List.mem_cons.1 hc with rfl | hc
      · exact .inr (by simp)
      · exact h.char.2 c hc
  have h2 : ∀ c ∈ x, NumberChar c := by
    intro c hc
    cases hx with
    | none => simp at hc
    | power hE hs hd =>
      rcases List.mem_cons.1 hc with rfl | hc
      · rcases hE with rfl | rfl <;> exact .inr (by simp)
      · rcases List.mem_append.1 hc with hc | hc
        · exact hs.char c hc
        · exact hd.char.2 c hc
  refine ⟨by simp [h1.1], fun c hc => ?_⟩
  rcases List.mem_append.1 hc with hc | hc
  · rcases List.mem_append.1 hc with hc | hc
    · exact hs.char c hc
    · exact h1.2 c hc
  · exact h2 c hc

theorem not_numberChar {c : Char} (h : c ∉ "0123456789_.+-eE".toList) : ¬ NumberChar c := by
  rintro (⟨d, hd, rfl⟩ | hc)
  · interval_cases d <;> exact h (by decide)
  · exact h (by
      simp only [List.mem_cons, List.not_mem_nil, or_false] at hc
      rcases hc with rfl | rfl | rfl | rfl | rfl | rfl <;> decide)

theorem NumberText.not_mem {t : Text} {q : ℚ} (h : NumberText t q) {c : Char} (hc : c ∉ "0123456789_.+-eE".toList) : c ∉ t :=
  fun hm => not_numberChar hc (h.char.2 c hm)

theorem NumberText.same {t : Text} {q q' : ℚ} (h : NumberText t q) (h' : NumberText t q') : q = q' := by
  have := (pyFloat_iff.2 h).symm.trans (pyFloat_iff.2 h')
  simpa using this

theorem BoundLiteral.not_mem {b : Bound} {t : Text} (h : BoundLiteral b t) {c : Char} (hc : c ∉ "0123456789_.+-eEinf".toList) : c ∉ t := by
  cases b with
  | fin q =>
    refine NumberText.not_mem h fun hm => hc ?_
    revert hm
    simp +contextual
    tauto
  | inf =>
    rintro hm
    rw [show t = _ from h] at hm
    refine hc ?_
    revert hm
    simp +contextual

theorem BoundLiteral.same {b b' : Bound} {t : Text} (h : BoundLiteral b t) (h' : BoundLiteral b' t) : b = b' := by
  have key : ∀ q, ¬ NumberText "inf".toList q := fun q h => NumberText.not_mem h (c := 'i') (by decide) (by decide)
  cases b with
  | fin q =>
    cases b' with
    | fin q' => exact congrArg _ (NumberText.same h h')
    | inf => exact absurd (h' ▸ h) (key q)
  | inf =>
    cases b' with
    | fin q' => exact absurd (h ▸ h') (key q')
    | inf => rfl

/-- Reading up to the first character of a kind. -/
theorem split_at_kind {P : Char → Prop} {a b r r' : Text} {c c' : Char} (ha : ∀ x ∈ a, ¬ P x) (hb : ∀ x ∈ b, ¬ P x) (hc : P c) (hc' : P c')
    (e : a ++ c :: r = b ++ c' :: r') : a = b ∧ c :: r = c' :: r' := by
  induction a generalizing b with
  | nil =>
    cases b with
    | nil => exact ⟨rfl, by simpa using e⟩
    | cons d b =>
      simp only [List.nil_append, List.cons_append, List.cons.injEq] at e
      exact absurd (e.1 ▸ hc) (hb d (by simp))
  | cons d a ih =>
    cases b with
    | nil =>
      simp only [List.nil_append, List.cons_append, List.cons.injEq] at e
      exact absurd (e.1 ▸ hc') (ha d (by simp))
    | cons d' b =>
      simp only [List.cons_append, List.cons.injEq] at e
      obtain ⟨rfl, e2⟩ := ih (fun x hx => ha x (by simp [hx])) (fun x hx => hb x (by simp [hx])) e.2
      exact ⟨by rw [e.1], e2⟩

/-- Reading from the end up to the last occurrence of a character. -/
theorem split_at_last {m : Char} {a b r r' : Text} (ha : m ∉ r) (hb : m ∉ r') (e : a ++ m :: r = b ++ m :: r') : a = b ∧ r = r' := by
  have e1 := congrArg List.reverse e
  simp only [List.reverse_append, List.reverse_cons, List.append_assoc, List.cons_append, List.nil_append] at e1
  obtain ⟨h1, h2⟩ := split_at_mark (by simpa using ha) (by simpa using hb) e1
  exact ⟨List.reverse_injective h2, List.reverse_injective h1⟩

theorem coordinates_unique : ReadsFromFront CoordinatesLiteral := by
  refine TupleLiteral.unique ?_ ?_
  · intro q q' w w' c c' r r' h h' hc hc' e
    have hn : ∀ {w : Text} {q : ℚ}, NumberText w q → ∀ x ∈ w, ¬ (x = ',' ∨ x = ')') := by
      rintro w q h x hx (rfl | rfl)
      · exact h.not_mem (by decide) hx
      · exact h.not_mem (by decide) hx
    obtain ⟨rfl, e2⟩ := split_at_kind (P := fun c => c = ',' ∨ c = ')') (hn h) (hn h') hc hc' e
    exact ⟨h.same h', e2⟩
  · intro q w h
    refine ⟨fun e => ?_, h.char.1⟩
    cases w with
    | nil => simp at e
    | cons c w =>
      simp only [List.head?_cons, Option.some.injEq] at e
      exact NumberText.not_mem h (c := ')') (by decide) (by simp [e])

theorem CoordinatesLiteral.not_mem {p : Pos} {w : Text} (h : CoordinatesLiteral p w) : '=' ∉ w := by
  obtain ⟨ws, hf, hw⟩ := h
  have h1 : ∀ x ∈ ws, '=' ∉ x := by
    intro x hx
    clear hw
    induction hf with
    | nil => simp at hx
    | cons h _ ih =>
      rcases List.mem_cons.1 hx with rfl | hx
      · exact NumberText.not_mem h (by decide)
      · exact ih hx
  match ws, hw with
  | [], hw => rw [hw]; decide
  | [x], hw =>
    rw [hw]
    have := h1 x (by simp)
    simp [this]
  | x :: y :: ws, hw =>
    rw [hw]
    have h2 := h1 x (by simp)
    have h3 := h1 y (by simp)
    have h4 : ∀ z ∈ ws, '=' ∉ z := fun z hz => h1 z (by simp [hz])
    simp only [List.map_cons, List.flatten_cons, List.mem_append, List.mem_flatten, List.mem_map, not_or, not_exists, not_and]
    simp [h2, h3]
    exact fun z hz => h4 z hz

/-- What follows the last equality sign in the text of a service. -/
theorem ServiceLiteral.cases {s : Service} {w : Text} (h : ServiceLiteral s w) :
    ∃ p a b d, CoordinatesLiteral s.position p ∧ NumberText a s.earliest ∧ BoundLiteral s.latest b ∧ NumberText d s.duration ∧
      w = "(('position', GeometricPosition(coordinates".toList ++ '=' :: (p ++ (")), ('earliest', ".toList ++ (a ++ ')' :: (", ('latest', ".toList ++ (b ++ ')' ::
        (", ('duration', ".toList ++ (d ++ "))".toList))))))) := by
  obtain ⟨p, a, b, d, hp, ha, hb, hd, rfl⟩ := h
  exact ⟨p, a, b, d, hp, ha, hb, hd, by simp⟩

/-- The last of the fields of a text. -/
theorem last_field {m : Char} {a b x y k : Text} (hx : m ∉ x) (hy : m ∉ y) (hk : m ∉ k) (e : a ++ m :: (x ++ k) = b ++ m :: (y ++ k)) : a = b ∧ x = y := by
  obtain ⟨h1, h2⟩ := split_at_last (by simp [hx, hk]) (by simp [hy, hk]) e
  exact ⟨h1, List.append_cancel_right h2⟩

/-- Reading a service from the end. -/
theorem service_last {s s' : Service} {w w' a b k : Text} (h : ServiceLiteral s w) (h' : ServiceLiteral s' w') (hk : '=' ∉ k)
    (e : a ++ '=' :: (w ++ k) = b ++ '=' :: (w' ++ k)) : a = b ∧ s = s' := by
  obtain ⟨p, x, y, z, hp, hx, hy, hz, rfl⟩ := h.cases
  obtain ⟨p', x', y', z', hp', hx', hy', hz', rfl⟩ := h'.cases
  have tail : ∀ {s : Service} {p x y z : Text}, CoordinatesLiteral s.position p → NumberText x s.earliest → BoundLiteral s.latest y → NumberText z s.duration →
      '=' ∉ p ++ (")), ('earliest', ".toList ++ (x ++ ')' :: (", ('latest', ".toList ++ (y ++ ')' :: (", ('duration', ".toList ++ (z ++ "))".toList)))))) := by
    intro s p x y z hp hx hy hz
    have h1 := hp.not_mem
    have h2 := hx.not_mem (c := '=') (by decide)
    have h3 := hy.not_mem (c := '=') (by decide)
    have h4 := hz.not_mem (c := '=') (by decide)
    simp [h1, h2, h3, h4]
  have key : ∀ (a t k : Text), a ++ '=' :: ("(('position', GeometricPosition(coordinates".toList ++ '=' :: t ++ k) =
      (a ++ '=' :: "(('position', GeometricPosition(coordinates".toList) ++ '=' :: (t ++ k) := by
    intro a t k
    simp
  rw [key, key] at e
  obtain ⟨e1, e2⟩ := last_field (m := '=') (tail hp hx hy hz) (tail hp' hx' hy' hz') hk e
  refine ⟨?_, ?_⟩
  · exact List.append_cancel_right e1
  · obtain ⟨f1, e3⟩ := coordinates_unique hp hp' e2
    obtain ⟨e4, e5⟩ := split_at_mark (hx.not_mem (by decide)) (hx'.not_mem (by decide)) (List.append_cancel_left e3)
    obtain ⟨e6, e7⟩ := split_at_mark (hy.not_mem (by decide)) (hy'.not_mem (by decide)) (List.append_cancel_left e5)
    have e8 := List.append_cancel_right (List.append_cancel_left e7)
    subst e4 e6 e8
    obtain ⟨sp, se, sl, sd⟩ := s
    obtain ⟨sp', se', sl', sd'⟩ := s'
    obtain rfl : sp = sp' := f1
    obtain rfl : se = se' := hx.same hx'
    obtain rfl : sl = sl' := hy.same hy'
    obtain rfl : sd = sd' := hz.same hz'
    rfl

/-- `str` writes the number. -/
def Legible (str : ℚ → Text) (q : ℚ) : Prop := NumberText (str q) q

/-- `str` writes the numbers of the service. -/
structure Service.Legible (str : ℚ → Text) (s : Service) : Prop where
  position : ∀ q ∈ s.position, Jinete.Legible str q
  earliest : Jinete.Legible str s.earliest
  latest : ∀ q, s.latest = .fin q → Jinete.Legible str q
  duration : Jinete.Legible str s.duration

theorem boundText_literal {str : ℚ → Text} {b : Bound} (h : ∀ q, b = .fin q → Legible str q) : BoundLiteral b (boundText str b) := by
  cases b with
  | fin q => exact h q rfl
  | inf => rfl

theorem coordinates_literal {str : ℚ → Text} {p : Pos} (h : ∀ q ∈ p, Legible str q) : CoordinatesLiteral p (tupleRepr (p.map str)) := by
  obtain ⟨ws, h1, h2⟩ := tupleRepr_literal (R := fun (q : ℚ) w => w = str q) (f := str) (fun _ => rfl) p
  refine ⟨ws, ?_, h2⟩
  clear h2
  induction h1 with
  | nil => exact .nil
  | cons h3 _ ih =>
    subst h3
    exact .cons (h _ (by simp)) (ih fun q hq => h q (by simp [hq]))

theorem strRepr_plain {t : Text} (h : '\'' ∉ t) (h' : '\\' ∉ t) : strRepr t = ['\''] ++ t ++ ['\''] := by
  have : ∀ t : Text, '\'' ∉ t → '\\' ∉ t → t.flatMap (fun c => if c = '\'' ∨ c = '\\' then ['\\', c] else [c]) = t := by
    intro t
    induction t with
    | nil => intros; rfl
    | cons c t ih =>
      intro h1 h2
      simp only [List.mem_cons, not_or] at h1 h2
      rw [List.flatMap_cons, ih h1.2 h2.2, if_neg (by rintro (h | h); exacts [h1.1 h.symm, h2.1 h.symm])]
      rfl
  simp only [strRepr, h, false_and, if_false]
  rw [this t h h']
  rfl

theorem pairRepr_eq (key : String) (value : Text) (h : '\'' ∉ key.toList) (h' : '\\' ∉ key.toList) :
    pairRepr key value = ['(', '\''] ++ key.toList ++ ['\'', ',', ' '] ++ value ++ [')'] := by
  rw [pairRepr, strRepr_plain h h']
  simp [tupleRepr, List.intercalate]

theorem serviceTuple_literal {str : ℚ → Text} {s : Service} (h : s.Legible str) : ServiceLiteral s (serviceTuple str s) := by
  refine ⟨_, _, _, _, coordinates_literal h.position, h.earliest, boundText_literal h.latest, h.duration, ?_⟩
  rw [serviceTuple, pairRepr_eq _ _ (by decide) (by decide), pairRepr_eq _ _ (by decide) (by decide), pairRepr_eq _ _ (by decide) (by decide),
    pairRepr_eq _ _ (by decide) (by decide)]
  simp [tupleRepr, posRepr, printed, List.intercalate]

/-- **C108, vehicles.** The text of a vehicle shows all that is known of it, and nothing else can be read from it, whatever its identifier is: two
vehicles with the same text have the same identifier, origin, destination, capacity and maximum time. -/
theorem C108_vehicle_text :
    (∀ (str : ℚ → Text) (v : LoadedVehicle), v.vehicle.origin.Legible str → v.vehicle.destination.Legible str → Legible str v.vehicle.capacity →
      (∀ q, v.vehicle.timeout = .fin q → Legible str q) → VehicleShown v (vehicleText str v)) ∧
    ∀ (v v' : LoadedVehicle) (w : Text), VehicleShown v w → VehicleShown v' w →
      v.identifier = v'.identifier ∧ v.vehicle.origin = v'.vehicle.origin ∧ v.vehicle.destination = v'.vehicle.destination ∧
      v.vehicle.capacity = v'.vehicle.capacity ∧ v.vehicle.timeout = v'.vehicle.timeout := by
  constructor
  · intro str v ho hd hc ht
    exact ⟨_, _, _, _, serviceTuple_literal ho, serviceTuple_literal hd, hc, boundText_literal ht, by simp [vehicleText, printed, List.intercalate]⟩
  · rintro v v' w ⟨o, d, c, t, ho, hd, hc, ht, rfl⟩ ⟨o', d', c', t', ho', hd', hc', ht', e⟩
    have key : ∀ i o d c t : Text, "Vehicle(identifier=".toList ++ i ++ ", origin=".toList ++ o ++ ", destination=".toList ++ d ++ ", capacity=".toList ++ c ++
        ", timeout=".toList ++ t ++ ")".toList = (("Vehicle(identifier=".toList ++ (i ++ ", origin".toList) ++ '=' :: (o ++ ", destination".toList)) ++ '=' ::
          (d ++ ", capacity".toList) ++ '=' :: (c ++ ", timeout".toList)) ++ '=' :: (t ++ ")".toList) := by
      intros
      simp
    rw [key, key] at e
    obtain ⟨f1, rfl⟩ := last_field (m := '=') (ht.not_mem (by decide)) (ht'.not_mem (by decide)) (by decide) e
    obtain ⟨f2, rfl⟩ := last_field (m := '=') (hc.not_mem (by decide)) (hc'.not_mem (by decide)) (by decide) f1
    obtain ⟨f3, e1⟩ := service_last hd hd' (by decide) f2
    obtain ⟨f4, e2⟩ := service_last ho ho' (by decide) f3
    exact ⟨List.append_cancel_right (List.append_cancel_left f4), e2, e1, hc.same hc', ht.same ht'⟩

/-- **C108, trips.** The same for trips. -/
theorem C108_trip_text :
    (∀ (str : ℚ → Text) (v : LoadedTrip), v.trip.origin.Legible str → v.trip.destination.Legible str → Legible str v.trip.onTimeBonus →
      Legible str v.trip.capacity → (∀ q, v.trip.timeout = .fin q → Legible str q) → TripShown v (tripText str v)) ∧
    ∀ (v v' : LoadedTrip) (w : Text), TripShown v w → TripShown v' w → v = v' := by
  constructor
  · intro str v ho hd hb hc ht
    exact ⟨_, _, _, _, _, serviceTuple_literal ho, serviceTuple_literal hd, hb, hc, boundText_literal ht, by simp [tripText, printed, List.intercalate]⟩
  · rintro ⟨i, ⟨_, _, _, _, _⟩⟩ ⟨i', ⟨_, _, _, _, _⟩⟩ w ⟨o, d, b, c, t, ho, hd, hb, hc, ht, rfl⟩ ⟨o', d', b', c', t', ho', hd', hb', hc', ht', e⟩
    dsimp only at *
    have key : ∀ i o d b c t : Text, "Trip(identifier=".toList ++ i ++ ", origin=".toList ++ o ++ ", destination=".toList ++ d ++ ", on_time_bonus=".toList ++ b ++
        ", capacity=".toList ++ c ++ ", timeout=".toList ++ t ++ ")".toList = (("Trip(identifier=".toList ++ (i ++ ", origin".toList) ++ '=' ::
          (o ++ ", destination".toList)) ++ '=' :: (d ++ ", on_time_bonus".toList) ++ '=' :: (b ++ ", capacity".toList) ++ '=' ::
          (c ++ ", timeout".toList)) ++ '=' :: (t ++ ")".toList) := by
      intros
      simp
    rw [key, key] at e
    obtain ⟨f1, rfl⟩ := last_field (m := '=') (ht.not_mem (by decide)) (ht'.not_mem (by decide)) (by decide) e
    obtain ⟨f2, rfl⟩ := last_field (m := '=') (hc.not_mem (by decide)) (hc'.not_mem (by decide)) (by decide) f1
    obtain ⟨f3, rfl⟩ := last_field (m := '=') (hb.not_mem (by decide)) (hb'.not_mem (by decide)) (by decide) f2
    obtain ⟨f4, e1⟩ := service_last hd hd' (by decide) f3
    obtain ⟨f5, e2⟩ := service_last ho ho' (by decide) f4
    obtain rfl := List.append_cancel_right (List.append_cancel_left f5)
    subst e1 e2
    obtain rfl := hb.same hb'
    obtain rfl := hc.same hc'
    obtain rfl := ht.same ht'
    rfl

theorem LiteralBody.mem {q : Char} {t w : Text} (h : LiteralBody q t w) {c : Char} (hc : c ∈ w) : c ∈ t ∨ c = '\\' := by
  induction h with
  | done => simp at hc
  | plain _ _ _ ih =>
    rcases List.mem_cons.1 hc with rfl | hc
    · exact .inl (by simp)
    · exact (ih hc).imp_left (by simp +contextual)
  | escaped _ _ ih =>
    rcases List.mem_cons.1 hc with rfl | hc
    · exact .inr rfl
    · rcases List.mem_cons.1 hc with rfl | hc
      · exact .inl (by simp)
      · exact (ih hc).imp_left (by simp +contextual)

theorem listsNames_not_mem {names : List Text} {w : Text} (h : ListsNames names w) (hn : ∀ t ∈ names, '=' ∉ t) : '=' ∉ w := by
  obtain ⟨ws, hf, hw⟩ := h
  have h1 : ∀ x ∈ ws, '=' ∉ x := by
    intro x hx
    clear hw
    induction hf with
    | nil => simp at hx
    | cons h _ ih =>
      rcases List.mem_cons.1 hx with rfl | hx
      · obtain ⟨q, b, hq, hb, rfl⟩ := h
        intro hm
        simp only [List.mem_append, List.mem_singleton] at hm
        rcases hm with (rfl | hm) | rfl
        · rcases hq with h | h <;> exact absurd h (by decide)
        · rcases hb.mem hm with hm | hm
          · exact hn _ (by simp) hm
          · exact absurd hm (by decide)
        · rcases hq with h | h <;> exact absurd h (by decide)
      · exact ih (fun t ht => hn t (by simp [ht])) hx
  match ws, hw with
  | [], hw => rw [hw]; decide
  | [x], hw =>
    rw [hw]
    have := h1 x (by simp)
    simp [this]
  | x :: y :: ws, hw =>
    rw [hw]
    have h2 := h1 x (by simp)
    have h3 := h1 y (by simp)
    have h4 : ∀ z ∈ ws, '=' ∉ z := fun z hz => h1 z (by simp [hz])
    simp only [List.map_cons, List.flatten_cons, List.mem_append, List.mem_flatten, List.mem_map, not_or, not_exists, not_and]
    simp [h2, h3]
    exact fun z hz => h4 z hz

/-- **C108, routes.** The text of a route shows the identifier of its vehicle and the names of its visits; if no trip has an equality sign in its name,
nothing else can be read from it, whatever the identifier of the vehicle is. -/
theorem C108_route_text :
    (∀ (ident vehicleIdent : Nat → Text) (c : Core) (r : Nat),
      RouteShown (vehicleIdent (c.route r).vehicle) ((itinerary c r).map (Visit.name ident)) (routeText ident vehicleIdent c r)) ∧
    ∀ (vehicle vehicle' : Text) (stops stops' : List Text) (w : Text), (∀ t ∈ stops, '=' ∉ t) → (∀ t ∈ stops', '=' ∉ t) →
      RouteShown vehicle stops w → RouteShown vehicle' stops' w → vehicle = vehicle' ∧ stops = stops' := by
  constructor
  · intro ident vehicleIdent c r
    refine ⟨tupleRepr (((itinerary c r).map (Visit.name ident)).map strRepr), names_shown _, ?_⟩
    have : ((itinerary c r).map (Visit.name ident)).map strRepr = (c.route r).stops.map fun s => strRepr (stopIdentifier ident c s) := by
      rw [itinerary, List.map_map, List.map_map]
      exact List.map_congr_left fun s _ => congrArg strRepr (stopIdentifier_eq ident c s).symm
    rw [this]
    simp [routeText, printed, List.intercalate]
  · rintro vehicle vehicle' stops stops' w h h' ⟨u, hu, rfl⟩ ⟨u', hu', e⟩
    have key : ∀ v u : Text, "Route(vehicle_identifier=".toList ++ v ++ ", stops_identifiers=".toList ++ u ++ ")".toList =
        "Route(vehicle_identifier=".toList ++ (v ++ ", stops_identifiers".toList) ++ '=' :: (u ++ ")".toList) := by
      intros
      simp
    rw [key, key] at e
    obtain ⟨e1, rfl⟩ := last_field (m := '=') (listsNames_not_mem hu h) (listsNames_not_mem hu' h') (by decide) e
    refine ⟨List.append_cancel_right (List.append_cancel_left e1), ?_⟩
    exact (listsNames_unique (r := []) (r' := []) hu hu' rfl).1

/-! ## C109 -/

/-- **C109, part.** The text of a service tells its times, and its position rounded to three digits. Missing: the exact position. -/
theorem C109_service_text_partial {str : ℚ → Text} {s : Service} (h1 : Legible str s.earliest) (h2 : ∀ q, s.latest = .fin q → Legible str q)
    (h3 : Legible str s.duration) :
    ServiceShown s (serviceText str s) ∧
    ∀ s' : Service, ServiceShown s' (serviceText str s) → s'.earliest = s.earliest ∧ s'.latest = s.latest ∧ s'.duration = s.duration := by
  have hs : ServiceShown s (serviceText str s) :=
    ⟨_, _, _, _, posText_position s.position, h1, boundText_literal h2, h3, by simp [serviceText, printed, List.intercalate]⟩
  refine ⟨hs, fun s' hs' => ?_⟩
  obtain ⟨p, a, b, d, hp, ha, hb, hd, e⟩ := hs
  rw [e] at hs'
  obtain ⟨p', a', b', d', hp', ha', hb', hd', e⟩ := hs'
  have key : ∀ p a b d : Text, "Service(position=".toList ++ p ++ ", earliest=".toList ++ a ++ ", latest=".toList ++ b ++ ", duration=".toList ++ d ++ ")".toList =
      (("Service(position=".toList ++ (p ++ ", earliest".toList)) ++ '=' :: (a ++ ", latest".toList) ++ '=' :: (b ++ ", duration".toList)) ++ '=' :: (d ++ ")".toList) := by
    intros
    simp
  rw [key, key] at e
  obtain ⟨f1, rfl⟩ := last_field (m := '=') (hd.not_mem (by decide)) (hd'.not_mem (by decide)) (by decide) e
  obtain ⟨f2, rfl⟩ := last_field (m := '=') (hb.not_mem (by decide)) (hb'.not_mem (by decide)) (by decide) f1
  obtain ⟨f3, rfl⟩ := last_field (m := '=') (ha.not_mem (by decide)) (ha'.not_mem (by decide)) (by decide) f2
  exact ⟨ha'.same ha, hb'.same hb, hd'.same hd⟩

/-- The full claim: services with the same text are equal. -/
def ServiceTextTells : Prop := ∀ (str : ℚ → Text), (∀ n : Nat, str n = decimal n) → ∀ s s' : Service, serviceText str s = serviceText str s' → s = s'

/-- **C109, the claim fails.** Two positions less than a thousandth apart have the same text. -/
theorem C109_claim_fails : ¬ ServiceTextTells := by
  intro h
  have := h (fun q => decimal q.num.toNat) (fun n => by simp) ⟨[1 / 10000], 0, .inf, 0⟩ ⟨[2 / 10000], 0, .inf, 0⟩ (by decide +kernel)
  exact absurd this (by decide +kernel)

/-! ## Concrete cases -/

/-- Natural numbers are written. -/
theorem legible_decimal {q : ℚ} (n : Nat) (h : q = n) : Legible (fun q => decimal q.num.toNat) q := by
  subst h
  have := numberText_decimal n
  simpa [Legible] using this

def shownVehicle : LoadedVehicle := ⟨"a=1, origin=".toList, { origin := ⟨[3, 4], 2, .fin 50, 1⟩, capacity := 6, timeout := .fin 480 }⟩

/-- A vehicle with commas and equality signs in its name. -/
example : VehicleShown shownVehicle ("Vehicle(identifier=a=1, origin=, origin=(('position', GeometricPosition(coordinates=(3, 4))), ('earliest', 2), ('latest', 50), " ++
    "('duration', 1)), destination=(('position', GeometricPosition(coordinates=(3, 4))), ('earliest', 2), ('latest', 50), ('duration', 1)), capacity=6, timeout=480)").toList := by
  have hb : ∀ (n : Nat) (q : ℚ), Bound.fin n = .fin q → Legible (fun q => decimal q.num.toNat) q := fun n q h => legible_decimal n (Bound.fin.inj h).symm
  have hs : shownVehicle.vehicle.origin.Legible fun q => decimal q.num.toNat := by
    refine ⟨?_, legible_decimal 2 (show (2 : ℚ) = _ by norm_num), fun q hq => hb 50 q ((show Bound.fin _ = Bound.fin (50 : ℚ) by norm_num).trans hq), legible_decimal 1 (show (1 : ℚ) = _ by norm_num)⟩
    intro q hq
    have hq : q ∈ [(3 : ℚ), 4] := hq
    rcases (by simpa using hq : q = 3 ∨ q = 4) with rfl | rfl
    · exact legible_decimal 3 (by norm_num)
    · exact legible_decimal 4 (by norm_num)
  have := C108_vehicle_text.1 (fun q => decimal q.num.toNat) shownVehicle hs hs (legible_decimal 6 (show (6 : ℚ) = _ by norm_num))
    fun q hq => hb 480 q ((show Bound.fin _ = Bound.fin (480 : ℚ) by norm_num).trans hq)
  convert this using 1
  decide +kernel

/-- A trip, read from a file. -/
example : tripText (fun q => decimal q.num.toNat) ⟨decimal 7, { origin := ⟨[1], 5, .inf, 0⟩, destination := ⟨[2], 0, .fin 9, 3⟩ }⟩ =
    ("Trip(identifier=7, origin=(('position', GeometricPosition(coordinates=(1,))), ('earliest', 5), ('latest', inf), ('duration', 0)), " ++
      "destination=(('position', GeometricPosition(coordinates=(2,))), ('earliest', 0), ('latest', 9), ('duration', 3)), on_time_bonus=0, capacity=1, timeout=inf)").toList := by
  decide +kernel

/-- A service, with its position rounded. -/
example : serviceText (fun q => decimal q.num.toNat) ⟨[5 / 2, -1 / 3], 5, .fin 30, 2⟩ =
    "Service(position=(002.500,-00.333), earliest=5, latest=30, duration=2)".toList := by
  decide +kernel

end Jinete
