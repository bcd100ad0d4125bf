import Verif.Model.Show
import Verif.Spec.Show
import Verif.Props.Columnar

/-!
# C104, C105, C106: texts of objects
-/

set_option autoImplicit false

namespace Jinete

/-! ## C104 -/

theorem LiteralBody.unique {q : Char} (hq : q ≠ '\\') {t w : Text} (h : LiteralBody q t w) : ∀ {t' w' r r' : Text}, LiteralBody q t' w' →
    w ++ q :: r = w' ++ q :: r' → t = t' ∧ r = r' := by
  induction h with
  | done =>
    intro t' w' r r' h' e
    cases h' with
    | done => exact ⟨rfl, by simpa using e⟩
    | plain h1 h2 _ => exact absurd (List.cons.inj e).1.symm h1
    | escaped h1 _ => exact absurd (List.cons.inj e).1 hq
  | @plain c t w h1 h2 _ ih =>
    intro t' w' r r' h' e
    cases h' with
    | done => exact absurd (List.cons.inj e).1 h1
    | plain h3 h4 h5 =>
      obtain ⟨rfl, e1⟩ := List.cons.inj e
      obtain ⟨rfl, rfl⟩ := ih h5 e1
      exact ⟨rfl, rfl⟩
    | escaped h3 _ => exact absurd (List.cons.inj e).1 h2
  | @escaped c t w h1 _ ih =>
    intro t' w' r r' h' e
    cases h' with
    | done => exact absurd (List.cons.inj e).1.symm hq
    | plain h3 h4 h5 => exact absurd (List.cons.inj e).1.symm h4
    | escaped h3 h5 =>
      obtain ⟨rfl, e1⟩ := List.cons.inj (List.cons.inj e).2
      obtain ⟨rfl, rfl⟩ := ih h5 e1
      exact ⟨rfl, rfl⟩

/-- Where a string literal ends can be seen from it. -/
theorem StringLiteral.unique {t t' w w' r r' : Text} (h : StringLiteral t w) (h' : StringLiteral t' w') (e : w ++ r = w' ++ r') : t = t' ∧ r = r' := by
  obtain ⟨q, b, hq, hb, rfl⟩ := h
  obtain ⟨q', b', hq', hb', rfl⟩ := h'
  simp only [List.append_assoc, List.cons_append, List.nil_append] at e
  obtain ⟨rfl, e⟩ := List.cons.inj e
  exact hb.unique (by rcases hq with rfl | rfl <;> decide) hb' e

/-- What is read from the front of a text is determined by it. -/
def ReadsFromFront {α : Type} (R : α → Text → Prop) : Prop := ∀ ⦃t t' w w' r r'⦄, R t w → R t' w' → w ++ r = w' ++ r' → t = t' ∧ r = r'

/-- What is read up to a comma or a closing parenthesis is determined by the text. -/
def ReadsToMark {α : Type} (R : α → Text → Prop) : Prop :=
  ∀ ⦃t t' w w' c c' r r'⦄, R t w → R t' w' → (c = ',' ∨ c = ')') → (c' = ',' ∨ c' = ')') → w ++ c :: r = w' ++ c' :: r' → t = t' ∧ c :: r = c' :: r'

theorem ReadsFromFront.toMark {α : Type} {R : α → Text → Prop} (h : ReadsFromFront R) : ReadsToMark R := fun _ _ _ _ _ _ _ _ h1 h2 _ _ e => h h1 h2 e

theorem bars_start (ws : List Text) (r : Text) :
    ∃ c u, (ws.map fun z => [',', ' '] ++ z).flatten ++ ')' :: r = c :: u ∧ (c = ',' ∨ c = ')') := by
  cases ws with
  | nil => exact ⟨')', r, rfl, .inr rfl⟩
  | cons z ws => exact ⟨',', _, rfl, .inl rfl⟩

theorem rest_unique {α : Type} {R : α → Text → Prop} (hR : ReadsToMark R) {l : List α} {ws : List Text} (h : List.Forall₂ R l ws) :
    ∀ {l' : List α} {ws' : List Text} {r r' : Text}, List.Forall₂ R l' ws' →
      (ws.map fun z => [',', ' '] ++ z).flatten ++ ')' :: r = (ws'.map fun z => [',', ' '] ++ z).flatten ++ ')' :: r' → l = l' ∧ r = r' := by
  induction h with
  | nil =>
    intro l' ws' r r' h' e
    cases h' with
    | nil => exact ⟨rfl, by simpa using e⟩
    | cons _ _ => simp at e
  | cons h _ ih =>
    intro l' ws' r r' h' e
    cases h' with
    | nil => simp at e
    | cons h1 h2 =>
      rename_i x w l ws hl x' w' l' ws'
      obtain ⟨c, u, e1, hc⟩ := bars_start ws r
      obtain ⟨c', u', e2, hc'⟩ := bars_start ws' r'
      have e3 : w ++ c :: u = w' ++ c' :: u' := by
        rw [← e1, ← e2]
        simpa using e
      obtain ⟨rfl, e4⟩ := hR h h1 hc hc' e3
      obtain ⟨rfl, rfl⟩ := ih h2 (by rw [e1, e2, e4])
      exact ⟨rfl, rfl⟩

/-- Where a tuple ends, and what it consists of, can be seen from it. -/
theorem TupleLiteral.unique {α : Type} {R : α → Text → Prop} (hR : ReadsToMark R) (hn : ∀ ⦃t w⦄, R t w → w.head? ≠ some ')' ∧ w ≠ []) :
    ReadsFromFront (TupleLiteral R) := by
  rintro l l' w w' r r' ⟨ws, h, hw⟩ ⟨ws', h', hw'⟩ e
  have nohead : ∀ {t : α} {w : Text} {a b : Text}, R t w → ')' :: a ≠ w ++ b := by
    intro t w a b h1 e1
    obtain ⟨h2, h3⟩ := hn h1
    cases w with
    | nil => exact h3 rfl
    | cons c w => exact h2 (by rw [List.head?_cons, (List.cons.inj e1).1])
  match ws, h, hw with
  | [], .nil, hw =>
    match ws', h', hw' with
    | [], .nil, hw' =>
      subst hw hw'
      exact ⟨rfl, by simpa using e⟩
    | [x], .cons h1 .nil, hw' =>
      subst hw hw'
      simp only [List.cons_append, List.nil_append, List.append_assoc, List.cons.injEq, true_and] at e
      exact absurd e (nohead h1)
    | x :: y :: ws', .cons h1 _, hw' =>
      subst hw hw'
      simp only [List.cons_append, List.nil_append, List.append_assoc, List.cons.injEq, true_and] at e
      exact absurd e (nohead h1)
  | [x], .cons h1 .nil, hw =>
    match ws', h', hw' with
    | [], .nil, hw' =>
      subst hw hw'
      simp only [List.cons_append, List.nil_append, List.append_assoc, List.cons.injEq, true_and] at e
      exact absurd e.symm (nohead h1)
    | [x'], .cons h2 .nil, hw' =>
      subst hw hw'
      simp only [List.cons_append, List.nil_append, List.append_assoc, List.cons.injEq, true_and] at e
      obtain ⟨rfl, e⟩ := hR h1 h2 (.inl rfl) (.inl rfl) e
      exact ⟨rfl, by simpa using e⟩
    | x' :: y :: ws', .cons h2 _, hw' =>
      subst hw hw'
      simp only [List.map_cons, List.flatten_cons, List.cons_append, List.nil_append, List.append_assoc, List.cons.injEq, true_and] at e
      obtain ⟨rfl, e⟩ := hR h1 h2 (.inl rfl) (.inl rfl) e
      simp at e
  | x :: y :: ws, .cons h1 h3, hw =>
    match ws', h', hw' with
    | [], .nil, hw' =>
      subst hw hw'
      simp only [List.cons_append, List.nil_append, List.append_assoc, List.cons.injEq, true_and] at e
      exact absurd e.symm (nohead h1)
    | [x'], .cons h2 .nil, hw' =>
      subst hw hw'
      simp only [List.map_cons, List.flatten_cons, List.cons_append, List.nil_append, List.append_assoc, List.cons.injEq, true_and] at e
      obtain ⟨rfl, e⟩ := hR h1 h2 (.inl rfl) (.inl rfl) e
      simp at e
    | x' :: y' :: ws', .cons h2 h4, hw' =>
      subst hw hw'
      simp only [List.cons_append, List.nil_append, List.append_assoc, List.cons.injEq, true_and] at e
      obtain ⟨rfl, e⟩ := hR h1 h2 (.inl rfl) (.inl rfl) (by simpa using e)
      obtain ⟨rfl, rfl⟩ := rest_unique hR h3 h4 (by simpa using e)
      exact ⟨rfl, rfl⟩

theorem listsNames_unique : ReadsFromFront ListsNames := by
  refine TupleLiteral.unique (ReadsFromFront.toMark fun _ _ _ _ _ _ h h' e => h.unique h' e) ?_
  rintro t w ⟨q, b, hq, _, rfl⟩
  rcases hq with rfl | rfl <;> simp

theorem strRepr_literal (t : Text) : StringLiteral t (strRepr t) := by
  have body : ∀ (q : Char) (t : Text), LiteralBody q t (t.flatMap fun c => if c = q ∨ c = '\\' then ['\\', c] else [c]) := by
    intro q t
    induction t with
    | nil => exact .done
    | cons c t ih =>
      rw [List.flatMap_cons]
      split
      · exact .escaped ‹_› ih
      · rename_i h
        push Not at h
        exact .plain h.1 h.2 ih
  refine ⟨_, _, ?_, body (if '\'' ∈ t ∧ '"' ∉ t then '"' else '\'') t, rfl⟩
  split <;> simp

theorem tupleRepr_literal {α : Type} {R : α → Text → Prop} {f : α → Text} (hf : ∀ a, R a (f a)) (l : List α) : TupleLiteral R l (tupleRepr (l.map f)) := by
  refine ⟨l.map f, by rw [List.forall₂_map_right_iff]; exact List.forall₂_same.2 fun a _ => hf a, ?_⟩
  match l with
  | [] => rfl
  | [a] => simp [tupleRepr]
  | a :: b :: l =>
    have key : ∀ (x : Text) (l : List Text), List.intercalate [',', ' '] (x :: l) = x ++ (l.map fun z => [',', ' '] ++ z).flatten := by
      intro x l
      induction l generalizing x with
      | nil => simp [List.intercalate]
      | cons y l ih =>
        have : List.intercalate [',', ' '] (x :: y :: l) = x ++ [',', ' '] ++ List.intercalate [',', ' '] (y :: l) := by
          simp [List.intercalate]
        rw [this, ih]
        simp
    show '(' :: List.intercalate [',', ' '] (f a :: f b :: l.map f) ++ [')'] = _
    rw [key]
    simp

theorem names_shown (l : List Text) : ListsNames l (tupleRepr (l.map strRepr)) := tupleRepr_literal strRepr_literal l

/-- The text says which vehicles the fleet has. -/
def FleetShown (names : List Text) (w : Text) : Prop := ∃ u, w = "Fleet(vehicle_identifiers=".toList ++ u ++ [')'] ∧ ListsNames names u

/-- The text says which trips the job has. -/
def JobShown (names : List Text) (w : Text) : Prop := ∃ u v, w = "Job(trip_identifiers=".toList ++ u ++ ", objective=".toList ++ v ++ [')'] ∧ ListsNames names u

/-- **C104, fleets and jobs.** The texts of a fleet and of a job list the identifiers of its vehicles and trips, whatever these are, and
nothing else can be read from them. -/
theorem C104_fleet_and_job (objective : Text) (names : List Text) :
    FleetShown names (fleetText names) ∧ JobShown names (jobText objective names) ∧
    (∀ other w, FleetShown names w → FleetShown other w → other = names) ∧ ∀ other w, JobShown names w → JobShown other w → other = names := by
  refine ⟨⟨_, by simp [fleetText, printed, List.intercalate], names_shown names⟩,
    ⟨_, objective, by simp [jobText, printed, List.intercalate], names_shown names⟩, ?_, ?_⟩
  · rintro other w ⟨u, rfl, h⟩ ⟨u', e, h'⟩
    rw [List.append_assoc, List.append_assoc] at e
    exact ((listsNames_unique h h' (List.append_cancel_left e)).1).symm
  · rintro other w ⟨u, v, rfl, h⟩ ⟨u', v', e, h'⟩
    simp only [List.append_assoc] at e
    exact ((listsNames_unique h h' (List.append_cancel_left e)).1).symm

/-- A fleet with an apostrophe, a quotation mark and a comma in its names. -/
example : (String.ofList (fleetText [decimal 0, "O'Neill".toList, "a\", 'b".toList])) =
    "Fleet(vehicle_identifiers=('0', \"O'Neill\", 'a\", \\'b'))" := by decide +kernel

/-! ## C105 -/

/-- The name of a tour: those of its visits. -/
def tourName (ident : Nat → Text) (l : List Visit) : Text := List.intercalate ['|'] (l.map (Visit.name ident))

/-- No identifier contains a character which the names of visits and tours use as a separator. -/
def PlainNames (ident : Nat → Text) (l : List Visit) : Prop :=
  ∀ v ∈ l, ∀ t ∈ v.picks ++ v.drops, '|' ∉ ident t ∧ ']' ∉ ident t

/-- The names of the trips picked up and dropped at a visit. -/
def Visit.served (ident : Nat → Text) (v : Visit) : List Text × List Text := (v.picks.map ident, v.drops.map ident)

theorem split_at_mark {m : Char} {a b r r' : Text} (ha : m ∉ a) (hb : m ∉ b) (e : a ++ m :: r = b ++ m :: r') : a = b ∧ r = r' := by
  induction a generalizing b with
  | nil =>
    cases b with
    | nil => exact ⟨rfl, by simpa using e⟩
    | cons c b =>
      simp only [List.nil_append, List.cons_append, List.cons.injEq] at e
      simp [e.1] at hb
  | cons c a ih =>
    cases b with
    | nil =>
      simp only [List.nil_append, List.cons_append, List.cons.injEq] at e
      simp [e.1] at ha
    | cons d b =>
      simp only [List.cons_append, List.cons.injEq] at e
      simp only [List.mem_cons, not_or] at ha hb
      obtain ⟨rfl, rfl⟩ := ih ha.2 hb.2 e.2
      exact ⟨by rw [e.1], rfl⟩

theorem joinWith_injective {m : Char} {l l' : List Text} (h : ∀ t ∈ l, t ≠ [] ∧ m ∉ t) (h' : ∀ t ∈ l', t ≠ [] ∧ m ∉ t)
    (e : joinWith m l = joinWith m l') : l = l' := by
  have nil : ∀ {l : List Text}, (∀ t ∈ l, t ≠ [] ∧ m ∉ t) → joinWith m l = [] → l = [] := by
    intro l hl e
    by_contra hne
    have := congrArg (cut m) e
    rw [cut_joinWith hne fun t ht => (hl t ht).2] at this
    rw [this] at hl
    exact (hl [] (by simp [cut])).1 rfl
  by_cases h1 : l = []
  · subst h1
    exact (nil h' e.symm).symm
  · by_cases h2 : l' = []
    · subst h2
      exact nil h e
    · rw [← cut_joinWith h1 fun t ht => (h t ht).2, e, cut_joinWith h2 fun t ht => (h' t ht).2]

theorem tagged_injective {a b a' b' : List Text} (e : a.map ('P' :: ·) ++ b.map ('D' :: ·) = a'.map ('P' :: ·) ++ b'.map ('D' :: ·)) : a = a' ∧ b = b' := by
  have pick : ∀ m : Char, ∀ l : List Text, (l.map (m :: ·)).filterMap (fun t => if t.head? = some m then t.tail? else none) = l := by
    intro m l
    induction l with
    | nil => rfl
    | cons x l ih => simp [ih]
  have skip : ∀ m n : Char, m ≠ n → ∀ l : List Text, (l.map (m :: ·)).filterMap (fun t => if t.head? = some n then t.tail? else none) = [] := by
    intro m n hmn l
    induction l with
    | nil => rfl
    | cons x l ih => simp [ih, hmn]
  constructor
  · have := congrArg (List.filterMap fun t => if t.head? = some 'P' then t.tail? else none) e
    simpa [List.filterMap_append, pick, skip] using this
  · have := congrArg (List.filterMap fun t => if t.head? = some 'D' then t.tail? else none) e
    simpa [List.filterMap_append, pick, skip] using this

/-- What stands between the brackets of a visit's name. -/
def Visit.inner (ident : Nat → Text) (v : Visit) : Text :=
  joinWith '|' (v.picks.map (fun t => 'P' :: ident t) ++ v.drops.map fun t => 'D' :: ident t)

theorem inner_closed {ident : Nat → Text} {l : List Visit} (h : PlainNames ident l) {v : Visit} (hv : v ∈ l) : ']' ∉ v.inner ident := by
  intro hm
  rcases mem_intercalate hm with hm | ⟨w, hw, hm⟩
  · simp at hm
  · simp only [List.mem_append, List.mem_map] at hw
    rcases hw with ⟨t, ht, rfl⟩ | ⟨t, ht, rfl⟩
    · exact (h v hv t (by simp [ht])).2 (by simpa using hm)
    · exact (h v hv t (by simp [ht])).2 (by simpa using hm)

theorem inner_injective {ident : Nat → Text} {l l' : List Visit} (h : PlainNames ident l) (h' : PlainNames ident l') {v v' : Visit}
    (hv : v ∈ l) (hv' : v' ∈ l') (e : v.inner ident = v'.inner ident) : v.served ident = v'.served ident := by
  have plain : ∀ {l : List Visit} {v : Visit}, PlainNames ident l → v ∈ l →
      ∀ t ∈ v.picks.map (fun t => 'P' :: ident t) ++ v.drops.map (fun t => 'D' :: ident t), t ≠ [] ∧ '|' ∉ t := by
    intro l v h hv t ht
    simp only [List.mem_append, List.mem_map] at ht
    rcases ht with ⟨t, ht, rfl⟩ | ⟨t, ht, rfl⟩
    · exact ⟨by simp, by simpa using (h v hv t (by simp [ht])).1⟩
    · exact ⟨by simp, by simpa using (h v hv t (by simp [ht])).1⟩
  have e1 := joinWith_injective (plain h hv) (plain h' hv') e
  have e2 : (v.picks.map ident).map ('P' :: ·) ++ (v.drops.map ident).map ('D' :: ·) =
      (v'.picks.map ident).map ('P' :: ·) ++ (v'.drops.map ident).map ('D' :: ·) := by simpa [Function.comp_def] using e1
  obtain ⟨h1, h2⟩ := tagged_injective e2
  simp [Visit.served, h1, h2]

theorem tourName_eq (ident : Nat → Text) (l : List Visit) :
    tourName ident l = match l with
      | [] => []
      | v :: l => '[' :: (v.inner ident ++ ']' :: (l.map fun v => '|' :: '[' :: v.inner ident ++ [']']).flatten) := by
  match l with
  | [] => rfl
  | v :: l =>
    have key : ∀ (x : Text) (l : List Text), List.intercalate ['|'] (x :: l) = x ++ (l.map fun z => '|' :: z).flatten := by
      intro x l
      induction l generalizing x with
      | nil => simp [List.intercalate]
      | cons y l ih =>
        have : List.intercalate ['|'] (x :: y :: l) = x ++ '|' :: List.intercalate ['|'] (y :: l) := by
          simp [List.intercalate]
        rw [this, ih]
        simp
    rw [tourName, List.map_cons, key]
    simp [Visit.name, Visit.inner, joinWith, Function.comp_def]

theorem bars_unique {ident : Nat → Text} {k k' : List Visit} (h : PlainNames ident k) (h' : PlainNames ident k') : ∀ {l l' : List Visit}, l ⊆ k → l' ⊆ k' →
    (l.map fun v => '|' :: '[' :: v.inner ident ++ [']']).flatten = (l'.map fun v => '|' :: '[' :: v.inner ident ++ [']']).flatten →
    l.map (Visit.served ident) = l'.map (Visit.served ident)
  | [], [], _, _, _ => rfl
  | [], _ :: _, _, _, e => by simp at e
  | _ :: _, [], _, _, e => by simp at e
  | v :: l, v' :: l', hl, hl', e => by
    simp only [List.map_cons, List.flatten_cons, List.cons_append, List.append_assoc, List.nil_append, List.cons.injEq, true_and] at e
    obtain ⟨e1, e2⟩ := split_at_mark (inner_closed h (hl (by simp))) (inner_closed h' (hl' (by simp))) e
    rw [List.map_cons, List.map_cons, inner_injective h h' (hl (by simp)) (hl' (by simp)) e1,
      bars_unique h h' (fun x hx => hl (by simp [hx])) (fun x hx => hl' (by simp [hx])) e2]

/-- **C105, part.** The identifier of a route tells, visit by visit, which trips are picked up and dropped, if no identifier of a trip
contains `|` or `]`: two routes with the same identifier serve trips of the same names in the same order, and routes that do so have the same
identifier. Missing: that the identifier identifies the route. -/
theorem C105_route_identifier_partial {ident : Nat → Text} {c c' : Core} {r r' : Nat} (h : PlainNames ident (itinerary c r))
    (h' : PlainNames ident (itinerary c' r')) :
    routeIdentifier ident c r = routeIdentifier ident c' r' ↔ (itinerary c r).map (Visit.served ident) = (itinerary c' r').map (Visit.served ident) := by
  have key : ∀ c r, routeIdentifier ident c r = tourName ident (itinerary c r) := by
    intro c r
    rw [routeIdentifier, tourName, joinWith, itinerary, List.map_map]
    exact congrArg _ (List.map_congr_left fun s _ => stopIdentifier_eq ident c s)
  rw [key, key]
  constructor
  · intro e
    rw [tourName_eq, tourName_eq] at e
    generalize itinerary c r = l at h e ⊢
    generalize itinerary c' r' = l' at h' e ⊢
    match l, l' with
    | [], [] => rfl
    | [], _ :: _ => simp at e
    | _ :: _, [] => simp at e
    | v :: l, v' :: l' =>
      simp only [List.cons.injEq, true_and] at e
      obtain ⟨e1, e2⟩ := split_at_mark (inner_closed h (by simp)) (inner_closed h' (by simp)) e
      rw [List.map_cons, List.map_cons, inner_injective h h' (by simp) (by simp) e1,
        bars_unique h h' (fun x hx => by simp [hx]) (fun x hx => by simp [hx]) e2]
  · intro e
    have hname : ∀ l : List Visit, tourName ident l = List.intercalate ['|'] ((l.map (Visit.served ident)).map fun x =>
        ['['] ++ List.intercalate ['|'] (x.1.map ('P' :: ·) ++ x.2.map ('D' :: ·)) ++ [']']) := by
      intro l
      rw [tourName, List.map_map]
      refine congrArg _ (List.map_congr_left fun v _ => ?_)
      simp [Visit.name, Visit.served, Function.comp_def]
    rw [hname, hname, e]

/-- The full claim: the routes of a planning have different identifiers. -/
def IdentifiersDiffer (E : Env) : Prop :=
  ∀ (h : Heap) (v w : Nat), v ≠ w → ∀ r h1 r' h2, newRoute E v h = (.ok r, h1) → newRoute E w h1 = (.ok r', h2) →
    routeIdentifier decimal h2.core r ≠ routeIdentifier decimal h2.core r'

/-- **C105, the claim fails.** Two vehicles that serve nobody have routes with the same identifier. -/
theorem C105_claim_fails (E : Env) : ¬ IdentifiersDiffer E := by
  intro hc
  exact hc .empty 0 1 (by decide) 0 _ 1 _ rfl rfl rfl

/-! ## C106 -/

variable {E : Env}

/-- **C106, part.** Making the message that an objective value has been computed has no influence: the value, the exception and the objects
are those of the computation alone, if the value is not that of a planned trip. Missing: planned trips. -/
theorem C106_logging_has_no_influence_partial (ident vehicleIdent : Nat → Text) (str : ℚ → Text) (result uuid : Text) (k : Objective) {v : Optimizable}
    (hv : ∀ p, v ≠ .plannedTrip p) (h : Heap) :
    (loggedValue E ident vehicleIdent str result uuid k v h).1.map Prod.fst = (k.value E v h).1 ∧
    (loggedValue E ident vehicleIdent str result uuid k v h).2 = (k.value E v h).2 := by
  unfold loggedValue
  rcases e : k.value E v h with ⟨x | x, h'⟩
  · rw [Py.bind_error e]
    exact ⟨rfl, rfl⟩
  · rw [Py.bind_ok e, Py.read_bind]
    cases v with
    | plannedTrip p => exact absurd rfl (hv p)
    | result l => exact ⟨rfl, rfl⟩
    | planning l => exact ⟨rfl, rfl⟩
    | route r => exact ⟨rfl, rfl⟩
    | stop s => exact ⟨rfl, rfl⟩
    | tuple w => exact ⟨rfl, rfl⟩

/-- **C106, planned trips.** The message about a planned trip asks whether it is feasible: the computation raises whatever this question
raises, and memoises its answer; nothing else happens. -/
theorem C106_planned_trip (ident vehicleIdent : Nat → Text) (str : ℚ → Text) (result uuid : Text) (k : Objective) {p : Nat} {h h' : Heap} {x : List ℚ}
    (e : k.value E (.plannedTrip p) h = (.ok x, h')) :
    (loggedValue E ident vehicleIdent str result uuid k (.plannedTrip p) h).1.map Prod.fst = (ptFeasible E p h').1.map (fun _ => x) ∧
    (loggedValue E ident vehicleIdent str result uuid k (.plannedTrip p) h).2 = (ptFeasible E p h').2 ∧
    OnlyMemos h' (loggedValue E ident vehicleIdent str result uuid k (.plannedTrip p) h).2 := by
  have key : (loggedValue E ident vehicleIdent str result uuid k (.plannedTrip p) h).1.map Prod.fst = (ptFeasible E p h').1.map (fun _ => x) ∧
      (loggedValue E ident vehicleIdent str result uuid k (.plannedTrip p) h).2 = (ptFeasible E p h').2 := by
    unfold loggedValue
    rw [Py.bind_ok e, Py.read_bind]
    dsimp only
    rcases e2 : ptFeasible E p h' with ⟨b | b, h2⟩
    · have : plannedTripText E ident p h' = (.error b, h2) := by
        unfold plannedTripText
        rw [Py.read_bind, Py.bind_error e2]
      rw [Py.bind_error this]
      exact ⟨rfl, rfl⟩
    · have : ∃ t, plannedTripText E ident p h' = (.ok t, h2) := by
        unfold plannedTripText
        rw [Py.read_bind, Py.bind_ok e2]
        exact ⟨_, rfl⟩
      obtain ⟨t, this⟩ := this
      rw [Py.bind_ok this]
      exact ⟨rfl, rfl⟩
  exact ⟨key.1, key.2, key.2 ▸ Silent.ptFeasible E p h'⟩

/-- The full claim: it has no influence whatever the value is of. -/
def LoggingHasNoInfluence (E : Env) : Prop :=
  ∀ (k : Objective) (v : Optimizable) (h : Heap),
    (loggedValue E decimal decimal (fun _ => []) [] [] k v h).1.map Prod.fst = (k.value E v h).1

/-- **C106, the claim fails.** A planned trip without stops has the value `(1, 0)` for the dial-a-ride objective as long as no message is
made: the message raises. -/
theorem C106_claim_fails (E : Env) : ¬ LoggingHasNoInfluence E := by
  intro hc
  have := hc .dialARide (.plannedTrip 0) .empty
  exact absurd this (by
    intro e
    have h1 : ((Objective.dialARide).value E (.plannedTrip 0) Heap.empty).1 = .ok [1, 0] := rfl
    have h2 : (loggedValue E decimal decimal (fun _ => []) [] [] .dialARide (.plannedTrip 0) Heap.empty).1 = .error .attributeError := rfl
    rw [h1, h2] at e
    exact absurd e (by simp [Except.map]))

/-- Names with a bar can make different tours look alike. -/
example : tourName (fun t => if t = 0 then "1|P2".toList else decimal t) [⟨[], none, [0], []⟩] =
    tourName (fun t => if t = 0 then "1|P2".toList else decimal t) [⟨[], none, [1, 2], []⟩] := by decide +kernel

/-- The text of a route. -/
example : routeText decimal decimal demoHeap.core 2 =
    "Route(vehicle_identifier=0, stops_identifiers=('[]', '[P0]', '[P1]', '[D1]', '[D0]', '[]'))".toList := by decide +kernel

/-- A message about a planned trip. -/
example : ((loggedValue demoEnv decimal decimal (fun q => decimal q.num.natAbs) [] [] .taxiSharing (.plannedTrip 0) demoHeap).1.toOption.map Prod.snd) =
    some ("Computed optimization function value and obtained \"(6,)\" from \"PlannedTrip(trip_identifier=0, pickup=Stop(position=(002.000), identifier=[P0]), delivery=Stop(position=(008.000), identifier=[D0]), feasible=True)\".".toList) := by
  decide +kernel

end Jinete
