import Verif.Spec.Plot
import Mathlib.Data.List.Nodup

/-!
# Dictionaries and the plots made of them
-/

set_option autoImplicit false

namespace Jinete

section Dict

variable {K V : Type} [DecidableEq K]

theorem keys_putKey (k : K) (v : V) (d : List (K × V)) (x : K) : x ∈ (putKey k v d).map Prod.fst ↔ x = k ∨ x ∈ d.map Prod.fst := by
  induction d with
  | nil => simp [putKey]
  | cons e d ih =>
    unfold putKey
    split
    · rename_i h
      simp only [List.map_cons, List.mem_cons, h]
      tauto
    · simp only [List.map_cons, List.mem_cons, ih]
      tauto

theorem nodup_putKey (k : K) (v : V) {d : List (K × V)} (hd : (d.map Prod.fst).Nodup) : ((putKey k v d).map Prod.fst).Nodup := by
  induction d with
  | nil => simp [putKey]
  | cons e d ih =>
    rw [List.map_cons, List.nodup_cons] at hd
    unfold putKey
    split
    · rename_i h
      rw [List.map_cons, List.nodup_cons]
      exact ⟨by rw [← h]; exact hd.1, hd.2⟩
    · rename_i h
      rw [List.map_cons, List.nodup_cons, keys_putKey]
      exact ⟨fun hc => hc.elim h hd.1, ih hd.2⟩

theorem mem_putKey {k : K} {v : V} {d : List (K × V)} (hd : (d.map Prod.fst).Nodup) (x : K) (y : V) :
    (x, y) ∈ putKey k v d ↔ x = k ∧ y = v ∨ x ≠ k ∧ (x, y) ∈ d := by
  induction d with
  | nil => simp [putKey]
  | cons e d ih =>
    rw [List.map_cons, List.nodup_cons] at hd
    unfold putKey
    split
    · rename_i h
      have hn : ∀ z, (k, z) ∉ d := fun z hz => hd.1 (h ▸ List.mem_map_of_mem (f := Prod.fst) hz)
      rw [List.mem_cons, List.mem_cons]
      constructor
      · rintro (h1 | h1)
        · cases h1; exact .inl ⟨rfl, rfl⟩
        · exact .inr ⟨fun hx => hn y (hx ▸ h1), .inr h1⟩
      · rintro (⟨rfl, rfl⟩ | ⟨h1, rfl | h2⟩)
        · exact .inl rfl
        · exact (h1 h).elim
        · exact .inr h2
    · rename_i h
      rw [List.mem_cons, List.mem_cons, ih hd.2]
      constructor
      · rintro (h1 | h1 | h1)
        · refine .inr ⟨fun hx => h ?_, .inl h1⟩
          rw [← h1]; exact hx
        · exact .inl h1
        · exact .inr ⟨h1.1, .inr h1.2⟩
      · rintro (h1 | ⟨h1, h2 | h2⟩)
        · exact .inr (.inl h1)
        · exact .inl h2
        · exact .inr (.inr ⟨h1, h2⟩)

/-- Entries put one after the other. -/
def putAll (l : List (K × V)) (d : List (K × V)) : List (K × V) := l.foldl (fun d e => putKey e.1 e.2 d) d

theorem nodup_putAll (l : List (K × V)) : ∀ {d : List (K × V)}, (d.map Prod.fst).Nodup → ((putAll l d).map Prod.fst).Nodup := by
  induction l with
  | nil => exact fun h => h
  | cons e l ih => exact fun h => ih (nodup_putKey _ _ h)

omit [DecidableEq K] in
theorem lastEntry_cons {e : K × V} {l : List (K × V)} {k : K} {v : V} :
    LastEntry (e :: l) k v ↔ LastEntry l k v ∨ e = (k, v) ∧ ∀ f ∈ l, f.1 ≠ k := by
  constructor
  · rintro ⟨i, h1, h2⟩
    cases i with
    | zero =>
      right
      refine ⟨by simpa using h1, fun f hf => ?_⟩
      obtain ⟨j, hj⟩ := List.mem_iff_getElem?.1 hf
      exact h2 (j + 1) f (by omega) (by simpa using hj)
    | succ i => exact .inl ⟨i, by simpa using h1, fun j f hj hf => h2 (j + 1) f (by omega) (by simpa using hf)⟩
  · rintro (⟨i, h1, h2⟩ | ⟨rfl, h2⟩)
    · refine ⟨i + 1, by simpa using h1, fun j f hj hf => ?_⟩
      obtain ⟨j, rfl⟩ : ∃ m, j = m + 1 := ⟨j - 1, by omega⟩
      exact h2 j f (by omega) (by simpa using hf)
    · refine ⟨0, rfl, fun j f hj hf => ?_⟩
      obtain ⟨j, rfl⟩ : ∃ m, j = m + 1 := ⟨j - 1, by omega⟩
      exact h2 f (List.mem_of_getElem? (by simpa using hf))

omit [DecidableEq K] in
theorem LastEntry.mem {l : List (K × V)} {k : K} {v : V} (h : LastEntry l k v) : (k, v) ∈ l :=
  let ⟨_, h1, _⟩ := h
  List.mem_of_getElem? h1

/-- For a key that occurs there is a last entry. -/
theorem lastEntry_exists {l : List (K × V)} {k : K} (h : k ∈ l.map Prod.fst) : ∃ v, LastEntry l k v := by
  induction l with
  | nil => cases h
  | cons e l ih =>
    by_cases hl : k ∈ l.map Prod.fst
    · obtain ⟨v, hv⟩ := ih hl
      exact ⟨v, lastEntry_cons.2 (.inl hv)⟩
    · have he : e.1 = k := by
        rw [List.map_cons, List.mem_cons] at h
        exact (h.resolve_right hl).symm
      refine ⟨e.2, lastEntry_cons.2 (.inr ⟨by rw [← he], fun f hf hk => hl ?_⟩)⟩
      rw [← hk]
      exact List.mem_map_of_mem hf

theorem mem_putAll (l : List (K × V)) : ∀ {d : List (K × V)}, (d.map Prod.fst).Nodup → ∀ (k : K) (v : V),
    (k, v) ∈ putAll l d ↔ LastEntry l k v ∨ (∀ e ∈ l, e.1 ≠ k) ∧ (k, v) ∈ d := by
  induction l with
  | nil =>
    intro d _ k v
    simp [putAll, LastEntry]
  | cons e l ih =>
    intro d hd k v
    show (k, v) ∈ putAll l (putKey e.1 e.2 d) ↔ _
    rw [ih (nodup_putKey _ _ hd), mem_putKey hd, lastEntry_cons]
    have : e = (k, v) ↔ k = e.1 ∧ v = e.2 := by
      rw [Prod.ext_iff, eq_comm, @eq_comm _ e.2]
    rw [this]
    simp only [List.mem_cons, forall_eq_or_imp]
    have : e.1 ≠ k ↔ k ≠ e.1 := ne_comm
    tauto

theorem keys_putNew (k : K) (v : V) (d : List (K × V)) (x : K) : x ∈ (putNew k v d).map Prod.fst ↔ x = k ∨ x ∈ d.map Prod.fst := by
  unfold putNew
  split
  · rename_i h
    exact ⟨.inr, fun hx => hx.elim (fun e => e ▸ h) id⟩
  · exact keys_putKey k v d x

theorem nodup_putNew (k : K) (v : V) {d : List (K × V)} (hd : (d.map Prod.fst).Nodup) : ((putNew k v d).map Prod.fst).Nodup := by
  unfold putNew
  split
  · exact hd
  · exact nodup_putKey k v hd

theorem mem_putNew {k : K} {v : V} {d : List (K × V)} (hd : (d.map Prod.fst).Nodup) (x : K) (y : V) :
    (x, y) ∈ putNew k v d ↔ (x, y) ∈ d ∨ x ∉ d.map Prod.fst ∧ x = k ∧ y = v := by
  unfold putNew
  split
  · rename_i h
    refine ⟨.inl, fun hx => hx.elim id fun ⟨h1, h2, _⟩ => (h1 (h2 ▸ h)).elim⟩
  · rename_i h
    rw [mem_putKey hd]
    constructor
    · rintro (⟨rfl, rfl⟩ | ⟨_, h2⟩)
      · exact .inr ⟨h, rfl, rfl⟩
      · exact .inl h2
    · rintro (h1 | ⟨_, h2, h3⟩)
      · exact .inr ⟨fun e => h (e ▸ List.mem_map_of_mem (f := Prod.fst) h1), h1⟩
      · exact .inl ⟨h2, h3⟩

/-- New keys, all with the same value. -/
theorem mem_putNews (v : V) (l : List K) : ∀ {d : List (K × V)}, (d.map Prod.fst).Nodup →
    ((l.foldl (fun d k => putNew k v d) d).map Prod.fst).Nodup ∧
    ∀ x y, (x, y) ∈ l.foldl (fun d k => putNew k v d) d ↔ (x, y) ∈ d ∨ x ∉ d.map Prod.fst ∧ y = v ∧ x ∈ l := by
  induction l with
  | nil => intro d hd; exact ⟨hd, by simp⟩
  | cons k l ih =>
    intro d hd
    obtain ⟨h1, h2⟩ := ih (nodup_putNew k v hd)
    refine ⟨h1, fun x y => ?_⟩
    rw [List.foldl_cons, h2, mem_putNew hd, keys_putNew, List.mem_cons]
    tauto

omit [DecidableEq K] in
theorem dict_lookup [BEq K] [LawfulBEq K] {d : List (K × V)} (hd : (d.map Prod.fst).Nodup) (k : K) (v : V) : d.lookup k = some v ↔ (k, v) ∈ d := by
  induction d with
  | nil => simp
  | cons e d ih =>
    rw [List.map_cons, List.nodup_cons] at hd
    rw [List.lookup_cons, List.mem_cons]
    by_cases h : k = e.1
    · rw [beq_iff_eq.2 h]
      constructor
      · intro he; left; rw [h, ← Option.some.inj he]
      · rintro (he | he)
        · rw [← he]
        · exact (hd.1 (h ▸ List.mem_map_of_mem (f := Prod.fst) he)).elim
    · rw [beq_eq_false_iff_ne.2 h, ih hd.2]
      exact ⟨.inr, fun hx => hx.elim (fun he => (h (by rw [← he])).elim) id⟩

end Dict

/-- Keeping first occurrences. -/
theorem firsts_spec {K : Type} [DecidableEq K] (l : List K) : ∀ a : List K, a.Nodup →
    (l.foldl (fun l p => if p ∈ l then l else l ++ [p]) a).Nodup ∧ ∀ x, x ∈ l.foldl (fun l p => if p ∈ l then l else l ++ [p]) a ↔ x ∈ a ∨ x ∈ l := by
  induction l with
  | nil => intro a ha; exact ⟨ha, by simp⟩
  | cons k l ih =>
    intro a ha
    rw [List.foldl_cons]
    by_cases h : k ∈ a
    · rw [if_pos h]
      refine ⟨(ih a ha).1, fun x => ?_⟩
      rw [(ih a ha).2, List.mem_cons]
      exact ⟨fun hx => hx.elim .inl fun h => .inr (.inr h), fun hx => hx.elim .inl fun hx => hx.elim (fun e => .inl (e ▸ h)) .inr⟩
    · rw [if_neg h]
      have hn : (a ++ [k]).Nodup := List.nodup_append.2 ⟨ha, by simp, by rintro x hx y hy rfl; exact h (List.mem_singleton.1 hy ▸ hx)⟩
      refine ⟨(ih _ hn).1, fun x => ?_⟩
      rw [(ih _ hn).2, List.mem_append, List.mem_singleton, List.mem_cons]
      tauto

theorem mapM_total {A B : Type} (f : A → Option B) : ∀ l : List A, (∀ x ∈ l, (f x).isSome) → ∃ ys, l.mapM f = some ys ∧ List.Forall₂ (fun x y => f x = some y) l ys
  | [], _ => ⟨[], rfl, .nil⟩
  | x :: l, h => by
    obtain ⟨y, hy⟩ := Option.isSome_iff_exists.1 (h x (by simp))
    obtain ⟨ys, h1, h2⟩ := mapM_total f l fun z hz => h z (by simp [hz])
    exact ⟨y :: ys, by rw [List.mapM_cons, hy, h1]; rfl, .cons hy h2⟩

theorem labelled_fst {K V : Type} {f : K → Option V} {l : List K} {ys : List (K × V)}
    (h : List.Forall₂ (fun p y => ((f p).map fun t => (p, t)) = some y) l ys) : ys.map Prod.fst = l ∧ ∀ p t, (p, t) ∈ ys → f p = some t := by
  induction h with
  | nil => exact ⟨rfl, fun _ _ h => nomatch h⟩
  | cons h _ ih =>
    obtain ⟨t, h4, rfl⟩ := Option.map_eq_some_iff.1 h
    refine ⟨by rw [List.map_cons, ih.1], fun p t' hp => ?_⟩
    rcases List.mem_cons.1 hp with hp | hp
    · cases hp
      exact h4
    · exact ih.2 p t' hp

/-! ## Legs -/

theorem mem_legs {f : Nat → Pos} (e : Pos × Pos) : ∀ l : List Nat,
    e ∈ (l.dropLast.zip l.tail).map (fun x => (f x.1, f x.2)) ↔ GoesOn (l.map f) e
  | [] => by simp [GoesOn]
  | [a] => by simp [GoesOn]
  | a :: b :: l => by
    have ih := mem_legs (f := f) e (b :: l)
    rw [List.dropLast_cons_cons, List.tail_cons, List.zip_cons_cons, List.map_cons, List.mem_cons]
    rw [List.tail_cons] at ih
    rw [ih]
    constructor
    · rintro (rfl | ⟨i, h1, h2⟩)
      · exact ⟨0, rfl, rfl⟩
      · exact ⟨i + 1, by simpa using h1, by simpa using h2⟩
    · rintro ⟨i, h1, h2⟩
      cases i with
      | zero =>
        left
        simp only [List.map_cons, List.getElem?_cons_zero, Option.some.injEq, zero_add, List.getElem?_cons_succ] at h1 h2
        rw [h1, h2]
      | succ i => exact .inr ⟨i, by simpa using h1, by simpa using h2⟩

theorem mem_routeLegs (c : Core) (r : Nat) (e : Pos × Pos) : e ∈ routeLegs c r ↔ GoesOn (tourOf c r) e := by
  unfold routeLegs tourOf itinerary
  rw [List.map_map]
  exact mem_legs (f := fun s => (c.stop s).position) e _

/-- All legs with their colours, in the order in which they are put. -/
def colouredLegs (c : Core) (l : List (Nat × Nat)) : List ((Pos × Pos) × Nat) := l.flatMap fun e => (routeLegs c e.1).map fun leg => (leg, e.2)

theorem plotEdges_eq (c : Core) (routes : List Nat) : plotEdges c routes = putAll (colouredLegs c routes.zipIdx) [] := by
  unfold plotEdges putAll colouredLegs
  rw [List.foldl_flatMap]
  congr 1
  funext d e
  rw [List.foldl_map]

theorem lastEntry_append {K V : Type} [DecidableEq K] {k : K} {v : V} (l m : List (K × V)) :
    LastEntry (l ++ m) k v ↔ LastEntry m k v ∨ LastEntry l k v ∧ ∀ f ∈ m, f.1 ≠ k := by
  induction l with
  | nil =>
    simp only [List.nil_append]
    refine ⟨.inl, fun h => h.elim id fun h => ?_⟩
    obtain ⟨⟨i, h, _⟩, _⟩ := h
    simp at h
  | cons e l ih =>
    rw [List.cons_append, lastEntry_cons, ih, lastEntry_cons]
    simp only [List.mem_append]
    constructor
    · rintro ((h | h) | ⟨h1, h2⟩)
      · exact .inl h
      · exact .inr ⟨.inl h.1, h.2⟩
      · exact .inr ⟨.inr ⟨h1, fun f hf => h2 f (.inl hf)⟩, fun f hf => h2 f (.inr hf)⟩
    · rintro (h | ⟨h | h, h3⟩)
      · exact .inl (.inl h)
      · exact .inl (.inr ⟨h, h3⟩)
      · exact .inr ⟨h.1, fun f hf => hf.elim (h.2 f) (h3 f)⟩

theorem lastEntry_same {K V : Type} [DecidableEq K] {k : K} {v w : V} (l : List K) : LastEntry (l.map fun x => (x, w)) k v ↔ k ∈ l ∧ v = w := by
  constructor
  · intro h
    have := h.mem
    simp only [List.mem_map, Prod.mk.injEq] at this
    obtain ⟨x, h1, rfl, rfl⟩ := this
    exact ⟨h1, rfl⟩
  · rintro ⟨h, rfl⟩
    obtain ⟨u, hu⟩ := lastEntry_exists (l := l.map fun x => (x, v)) (k := k) (by simpa using h)
    have := hu.mem
    simp only [List.mem_map, Prod.mk.injEq] at this
    obtain ⟨x, h1, rfl, rfl⟩ := this
    exact hu

theorem lastEntry_coloured (c : Core) (e : Pos × Pos) (i : Nat) : ∀ (routes : List Nat) (n : Nat), LastEntry (colouredLegs c (routes.zipIdx n)) e i ↔
    n ≤ i ∧ (∃ r, routes[i - n]? = some r ∧ GoesOn (tourOf c r) e) ∧ ∀ j r, i < j → routes[j - n]? = some r → ¬ GoesOn (tourOf c r) e
  | [], n => by simp [colouredLegs, LastEntry]
  | r :: l, n => by
    have hm : ∀ m, (∀ f ∈ colouredLegs c (l.zipIdx m), f.1 ≠ e) ↔ ∀ (j r : Nat), l[j]? = some r → ¬ GoesOn (tourOf c r) e := by
      intro m
      constructor
      · intro h j r' hj hg
        refine h (e, j + m) ?_ rfl
        unfold colouredLegs
        rw [List.mem_flatMap]
        refine ⟨(r', j + m), ?_, List.mem_map.2 ⟨e, (mem_routeLegs c r' e).2 hg, rfl⟩⟩
        rw [List.mk_mem_zipIdx_iff_le_and_getElem?_sub]
        exact ⟨by omega, by rw [Nat.add_sub_cancel]; exact hj⟩
      · intro h f hf hfe
        unfold colouredLegs at hf
        rw [List.mem_flatMap] at hf
        obtain ⟨⟨r', j⟩, h1, h2⟩ := hf
        obtain ⟨leg, h3, rfl⟩ := List.mem_map.1 h2
        rw [List.mk_mem_zipIdx_iff_le_and_getElem?_sub] at h1
        exact h _ _ h1.2 ((mem_routeLegs c r' e).1 (hfe ▸ h3))
    rw [List.zipIdx_cons]
    show LastEntry ((routeLegs c r).map (fun leg => (leg, n)) ++ colouredLegs c (l.zipIdx (n + 1))) e i ↔ _
    rw [lastEntry_append, lastEntry_same, lastEntry_coloured c e i l (n + 1), mem_routeLegs, hm]
    constructor
    · rintro (⟨h1, ⟨r', h2, h3⟩, h4⟩ | ⟨⟨h1, rfl⟩, h2⟩)
      · refine ⟨by omega, ⟨r', ?_, h3⟩, fun j r'' hj hr => h4 j r'' hj ?_⟩
        · rw [show i - n = (i - (n + 1)) + 1 by omega]; simpa using h2
        · rw [show j - n = (j - (n + 1)) + 1 by omega] at hr; simpa using hr
      · refine ⟨le_refl _, ⟨r, by simp, h1⟩, fun j r'' hj hr => h2 (j - (i + 1)) r'' ?_⟩
        rw [show j - i = (j - (i + 1)) + 1 by omega] at hr; simpa using hr
    · rintro ⟨h1, ⟨r', h2, h3⟩, h4⟩
      by_cases hi : i = n
      · subst hi
        right
        simp only [Nat.sub_self, List.getElem?_cons_zero, Option.some.injEq] at h2
        subst h2
        refine ⟨⟨h3, rfl⟩, fun j r'' hr => h4 (j + i + 1) r'' (by omega) ?_⟩
        rw [show j + i + 1 - i = j + 1 by omega]; simpa using hr
      · left
        refine ⟨by omega, ⟨r', ?_, h3⟩, fun j r'' hj hr => h4 j r'' hj ?_⟩
        · rw [show i - n = (i - (n + 1)) + 1 by omega] at h2; simpa using h2
        · rw [show j - n = (j - (n + 1)) + 1 by omega]; simpa using hr

/-! ## The whole plot -/

theorem plotNodes_eq (E : Env) (ident : Nat → Text) (trips : List Nat) (edges : List ((Pos × Pos) × Nat)) :
    plotNodes E ident trips edges = (edges.flatMap fun e => [e.1.1, e.1.2]).foldl (fun d p => putNew p [] d) (putAll (labelledEnds E ident trips) []) := by
  unfold plotNodes putAll labelledEnds
  rw [List.foldl_flatMap, List.foldl_flatMap]
  rfl

theorem graphPlot_spec (E : Env) (ident : Nat → Text) (c : Core) (routes trips : List Nat) :
    ∃ g, graphPlot E ident c routes trips = .ok g ∧ PlotOf E ident c routes trips g := by
  have hE : ∀ e i, (e, i) ∈ plotEdges c routes ↔ (∃ r, routes[i]? = some r ∧ GoesOn (tourOf c r) e) ∧
      ∀ j r, i < j → routes[j]? = some r → ¬ GoesOn (tourOf c r) e := by
    intro e i
    rw [plotEdges_eq, mem_putAll _ (by simp), lastEntry_coloured]
    simp
  have hEn : ((plotEdges c routes).map Prod.fst).Nodup := by rw [plotEdges_eq]; exact nodup_putAll _ (by simp)
  obtain ⟨hNn, hN⟩ := mem_putNews ([] : Text) ((plotEdges c routes).flatMap fun e => [e.1.1, e.1.2]) (nodup_putAll (labelledEnds E ident trips) (d := []) (by simp))
  rw [← plotNodes_eq] at hNn hN
  -- the ends of edges are the ends of legs
  have hends : ∀ p, p ∈ ((plotEdges c routes).flatMap fun e => [e.1.1, e.1.2]) ↔ ∃ r ∈ routes, OnTheWay c r p := by
    have key : ∀ e, (∃ i, (e, i) ∈ plotEdges c routes) ↔ ∃ r ∈ routes, GoesOn (tourOf c r) e := by
      intro e
      constructor
      · rintro ⟨i, hi⟩
        obtain ⟨⟨r, h1, h2⟩, _⟩ := (hE e i).1 hi
        exact ⟨r, List.mem_of_getElem? h1, h2⟩
      · rintro ⟨r, h1, h2⟩
        obtain ⟨i, hi⟩ := List.mem_iff_getElem?.1 h1
        obtain ⟨v, hv⟩ := lastEntry_exists (l := colouredLegs c routes.zipIdx) (k := e) (by
          refine List.mem_map.2 ⟨(e, i), ?_, rfl⟩
          refine List.mem_flatMap.2 ⟨(r, i), ?_, List.mem_map.2 ⟨e, (mem_routeLegs c r e).2 h2, rfl⟩⟩
          rw [List.mk_mem_zipIdx_iff_getElem?]
          exact hi)
        exact ⟨v, by rw [plotEdges_eq, mem_putAll _ (by simp)]; exact .inl hv⟩
    intro p
    rw [List.mem_flatMap]
    constructor
    · rintro ⟨⟨e, i⟩, h1, h2⟩
      obtain ⟨r, h3, h4⟩ := (key e).1 ⟨i, h1⟩
      simp only [List.mem_cons, List.not_mem_nil, or_false] at h2
      rcases h2 with rfl | rfl
      · exact ⟨r, h3, e.2, .inl h4⟩
      · exact ⟨r, h3, e.1, .inr h4⟩
    · rintro ⟨r, h3, q, h4 | h4⟩
      · obtain ⟨i, hi⟩ := (key _).2 ⟨r, h3, h4⟩
        exact ⟨_, hi, by simp⟩
      · obtain ⟨i, hi⟩ := (key _).2 ⟨r, h3, h4⟩
        exact ⟨_, hi, by simp⟩
  have hkeys : ∀ p, p ∈ (putAll (labelledEnds E ident trips) []).map Prod.fst ↔ ∃ e ∈ labelledEnds E ident trips, e.1 = p := by
    intro p
    constructor
    · intro h
      obtain ⟨⟨q, t⟩, h1, rfl⟩ := List.mem_map.1 h
      rw [mem_putAll _ (by simp)] at h1
      rcases h1 with h1 | h1
      · exact ⟨_, h1.mem, rfl⟩
      · simp at h1
    · rintro ⟨e, h1, rfl⟩
      obtain ⟨v, hv⟩ := lastEntry_exists (List.mem_map_of_mem (f := Prod.fst) h1)
      exact List.mem_map.2 ⟨(e.1, v), by rw [mem_putAll _ (by simp)]; exact .inl hv, rfl⟩
  have hnodes : ∀ p t, (p, t) ∈ plotNodes E ident trips (plotEdges c routes) ↔ LastEntry (labelledEnds E ident trips) p t ∨
      (∀ e ∈ labelledEnds E ident trips, e.1 ≠ p) ∧ t = [] ∧ ∃ r ∈ routes, OnTheWay c r p := by
    intro p t
    rw [hN, hends, mem_putAll _ (by simp), hkeys]
    have : (¬ ∃ e ∈ labelledEnds E ident trips, e.1 = p) ↔ ∀ e ∈ labelledEnds E ident trips, e.1 ≠ p :=
      ⟨fun h e he hp => h ⟨e, he, hp⟩, fun h ⟨e, he, hp⟩ => h e he hp⟩
    rw [this]
    simp only [List.not_mem_nil, and_false, or_false]
  -- every node of the graph has a label
  obtain ⟨gN, gM⟩ : (graphNodes (plotEdges c routes) (plotNodes E ident trips (plotEdges c routes))).Nodup ∧
      ∀ p, p ∈ graphNodes (plotEdges c routes) (plotNodes E ident trips (plotEdges c routes)) ↔ p ∈ ([] : List Pos) ∨
        p ∈ ((plotEdges c routes).flatMap fun e => [e.1.1, e.1.2]) ++ (plotNodes E ident trips (plotEdges c routes)).map Prod.fst := by
    unfold graphNodes
    convert firsts_spec (((plotEdges c routes).flatMap fun e => [e.1.1, e.1.2]) ++ (plotNodes E ident trips (plotEdges c routes)).map Prod.fst) [] (by simp)
  have gM' : ∀ p, p ∈ graphNodes (plotEdges c routes) (plotNodes E ident trips (plotEdges c routes)) ↔
      p ∈ (plotNodes E ident trips (plotEdges c routes)).map Prod.fst := by
    intro p
    rw [gM, List.mem_append]
    simp only [List.not_mem_nil, false_or]
    refine ⟨fun h => h.elim (fun h => ?_) id, .inr⟩
    by_cases hp : p ∈ (putAll (labelledEnds E ident trips) []).map Prod.fst
    · obtain ⟨⟨q, t⟩, h1, rfl⟩ := List.mem_map.1 hp
      exact List.mem_map.2 ⟨(q, t), (hN q t).2 (.inl h1), rfl⟩
    · exact List.mem_map.2 ⟨(p, []), (hN p []).2 (.inr ⟨hp, rfl, h⟩), rfl⟩
  obtain ⟨ys, h1, h2⟩ := mapM_total (fun p => ((plotNodes E ident trips (plotEdges c routes)).lookup p).map fun t => (p, t))
    (graphNodes (plotEdges c routes) (plotNodes E ident trips (plotEdges c routes))) (by
      intro p hp
      obtain ⟨⟨q, t⟩, h1, rfl⟩ := List.mem_map.1 ((gM' p).1 hp)
      dsimp only
      rw [(dict_lookup hNn q t).2 h1]
      rfl)
  obtain ⟨hfst, hlab⟩ := labelled_fst h2
  have hys : ∀ p t, (p, t) ∈ ys ↔ (p, t) ∈ plotNodes E ident trips (plotEdges c routes) := by
    have sound : ∀ p t, (p, t) ∈ ys → (p, t) ∈ plotNodes E ident trips (plotEdges c routes) := fun p t h => (dict_lookup hNn _ _).1 (hlab p t h)
    refine fun p t => ⟨sound p t, fun h => ?_⟩
    have hp : p ∈ ys.map Prod.fst := by rw [hfst, gM']; exact List.mem_map_of_mem (f := Prod.fst) h
    obtain ⟨⟨q, t'⟩, h3, rfl⟩ := List.mem_map.1 hp
    have := sound _ _ h3
    rw [← dict_lookup hNn] at this h
    rw [this] at h
    cases h
    exact h3
  refine ⟨⟨ys, plotEdges c routes⟩, ?_, hEn, ?_, hE, ?_⟩
  · unfold graphPlot
    simp only [h1]
  · rw [hfst]; exact gN
  · intro p t
    rw [hys, hnodes]

end Jinete
