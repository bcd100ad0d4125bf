import Verif.Proofs.FootSearch
import Verif.Model.Iterator

/-!
# The insertion iterators stay in their region
-/

set_option autoImplicit false

namespace Jinete

open Region

variable {α β : Type}

/-- The routes an iterator knows lie between the bounds. -/
structure Knows (b n : Region) (s : IterState) : Prop where
  container : ∀ e ∈ s.container, InR b n e.2
  attractive : ∀ a, s.attractive = some a → ∀ r ∈ a, InR b n r
  ranking : ∀ e ∈ s.ranking, ∀ r ∈ e.2, InR b n r
  pairs : ∀ g, s.gen = some g → ∀ e ∈ g.1, InR b n e.1
  ready : ∀ g, s.gen = some g → ∀ r ∈ g.2, InR b n r

theorem Knows.up {b n n' : Region} {s : IterState} (k : Knows b n s) (l : n.Le n') : Knows b n' s :=
  ⟨fun e h => (k.container e h).up l, fun a e r h => (k.attractive a e r h).up l, fun e h r h' => (k.ranking e h r h').up l,
    fun g e x h => (k.pairs g e x h).up l, fun g e x h => (k.ready g e x h).up l⟩

/-- The region is closed and the iterator knows only routes of it. -/
structure Fenced (b : Region) (s : IterState) : Prop where
  heap : Enclosed b s.heap.core
  knows : Knows b (of s.heap.core) s

/-- As `Foot`, for methods of an iterator. -/
def FootI (b n : Region) (m : IterM α) (Q : Region → α → Prop) : Prop :=
  ∀ s, Fenced b s → n.Le (of s.heap.core) →
    Spared b s.heap (m s).2.heap ∧ Fenced b (m s).2 ∧ ∀ a, (m s).1 = .ok a → Q (of (m s).2.heap.core) a

/-- The same, with nothing said about what is yielded. -/
abbrev FootI0 (b n : Region) (m : IterM α) : Prop := FootI b n m fun _ _ => True

namespace FootI

variable {b n : Region}

theorem weaken {m : IterM α} {Q Q' : Region → α → Prop} (hm : FootI b n m Q) (hq : ∀ n' a, n.Le n' → Q n' a → Q' n' a) : FootI b n m Q' :=
  fun h c g => ⟨(hm h c g).1, (hm h c g).2.1, fun a e => hq _ a (g.trans (hm h c g).1.up) ((hm h c g).2.2 a e)⟩

theorem pure {a : α} {Q : Region → α → Prop} (hq : ∀ n', n.Le n' → Q n' a) : FootI b n (Pure.pure a : IterM α) Q :=
  fun s c g => ⟨Spared.refl b s.heap, c, fun a' e => by cases e; exact hq _ g⟩

theorem pure0 (a : α) : FootI0 b n (Pure.pure a : IterM α) := pure fun _ _ => trivial

theorem raise (e : Err) {Q : Region → α → Prop} : FootI b n (Py.raise e : IterM α) Q :=
  fun s c _ => ⟨Spared.refl b s.heap, c, fun _ e => by cases e⟩

theorem bind {m : IterM α} {f : α → IterM β} {Q : Region → α → Prop} {Q' : Region → β → Prop} (hm : FootI b n m Q)
    (hf : ∀ n' a, n.Le n' → Q n' a → FootI b n' (f a) Q') : FootI b n (m >>= f) Q' := by
  intro h c g
  rw [Py.bind_run]
  obtain ⟨x, y, z⟩ := hm h c g
  cases e : m h with
  | mk a h1 =>
    rw [e] at x y z
    cases a with
    | ok a =>
      obtain ⟨x', y', z'⟩ := hf _ a (g.trans x.up) (z a rfl) h1 y (Le.refl _)
      exact ⟨x.trans x', y', z'⟩
    | error e => exact ⟨x, y, fun _ e => by cases e⟩

theorem then0 {m : IterM α} {f : α → IterM β} {Q' : Region → β → Prop} (hm : FootI0 b n m) (hf : ∀ n' a, n.Le n' → FootI b n' (f a) Q') :
    FootI b n (m >>= f) Q' := bind hm fun n' a l _ => hf n' a l

/-- Reading the state first. -/
theorem asking {f : IterState → IterM β} {Q : Region → β → Prop}
    (hf : ∀ s, Fenced b s → n.Le (of s.heap.core) → FootI b (of s.heap.core) (f s) Q) : FootI b n (Py.read >>= f) Q := by
  intro h c g
  rw [Py.read_bind]
  exact hf h c g h c (Le.refl _)

theorem unwrap {e : Err} {o : Option α} {Q : Region → α → Prop} (hq : ∀ a, o = some a → ∀ n', n.Le n' → Q n' a) :
    FootI b n (Py.unwrap e o : IterM α) Q := by
  cases o with
  | none => exact raise _
  | some a => exact pure fun n' l => hq a rfl n' l

theorem index {l : List α} {i : Nat} {Q : Region → α → Prop} (hq : ∀ a ∈ l, ∀ n', n.Le n' → Q n' a) :
    FootI b n (Py.index l i : IterM α) Q := by
  unfold Py.index
  cases e : l[i]? with
  | none => exact raise _
  | some a => exact pure fun n' l' => hq a (List.mem_of_getElem? e) n' l'

theorem ite {p : Prop} [Decidable p] {x y : IterM α} {Q : Region → α → Prop} (hx : FootI b n x Q) (hy : FootI b n y Q) :
    FootI b n (if p then x else y) Q := by
  split_ifs
  · exact hx
  · exact hy

theorem mapEach {f : α → IterM β} {Q : Region → β → Prop} (hQ : ∀ n n' a, Region.Le n n' → Q n a → Q n' a) :
    ∀ (l : List α) (n : Region), (∀ a ∈ l, ∀ n', n.Le n' → FootI b n' (f a) Q) →
      FootI b n (Py.mapEach l f) fun n' ys => ∀ y ∈ ys, Q n' y
  | [], _, _ => pure fun _ _ y hy => (nomatch hy)
  | x :: l, n, hf => by
    show FootI b n (f x >>= fun y => Py.mapEach l f >>= fun ys => Pure.pure (y :: ys)) _
    refine bind (hf x (by simp) n (Le.refl _)) fun n1 y l1 hy => ?_
    refine bind (mapEach hQ l n1 fun a ha n' l' => hf a (by simp [ha]) n' (l1.trans l')) fun n2 ys l2 hys => pure fun n3 l3 z hz => ?_
    rcases List.mem_cons.1 hz with rfl | hz
    · exact hQ n1 n3 _ (l2.trans l3) hy
    · exact hQ n2 n3 _ l3 (hys z hz)

theorem forEach {f : α → IterM Unit} : ∀ (l : List α) (n : Region), (∀ a ∈ l, ∀ n', n.Le n' → FootI0 b n' (f a)) →
    FootI0 b n (Py.forEach l f)
  | [], _, _ => pure0 _
  | x :: l, n, hf => by
    show FootI b n (f x >>= fun _ => Py.forEach l f) _
    exact then0 (hf x (by simp) n (Le.refl _)) fun n1 _ l1 => forEach l n1 fun a ha n' l' => hf a (by simp [ha]) n' (l1.trans l')

/-- An update of what the iterator knows. -/
theorem note {f : IterState → IterState} (hh : ∀ s, (f s).heap = s.heap)
    (hf : ∀ s, Fenced b s → n.Le (of s.heap.core) → Knows b (of s.heap.core) (f s)) : FootI0 b n (Py.modify f) := by
  intro s c g
  refine ⟨?_, ⟨?_, ?_⟩, fun _ _ => trivial⟩
  · show Spared b s.heap (f s).heap
    rw [hh]; exact Spared.refl b s.heap
  · show Enclosed b (f s).heap.core
    rw [hh]; exact c.heap
  · show Knows b (of (f s).heap.core) (f s)
    rw [hh]; exact hf s c g

theorem onHeap {m : M α} {Q : Region → α → Prop} (hm : Foot b n m Q) : FootI b n (onHeap m) Q := by
  intro s c g
  obtain ⟨x, y, z⟩ := hm s.heap c.heap g
  unfold Jinete.onHeap
  cases e : m s.heap with
  | mk a h1 =>
    rw [e] at x y z
    have k := c.knows.up x.up
    exact ⟨x, ⟨y, ⟨k.container, k.attractive, k.ranking, k.pairs, k.ready⟩⟩, z⟩

theorem catchStop {m : IterM α} {Q : Region → α → Prop} (hm : FootI b n m Q) :
    FootI b n (catchStop m) fun n' x => ∀ a, x = some a → Q n' a := by
  intro s c g
  obtain ⟨x, y, z⟩ := hm s c g
  unfold Jinete.catchStop
  cases e : m s with
  | mk a h1 =>
    rw [e] at x y z
    cases a with
    | ok a => exact ⟨x, y, fun a' e' a'' e'' => by cases e'; cases e''; exact z a rfl⟩
    | error err =>
      cases err
      all_goals exact ⟨x, y, fun a' e' => by cases e' <;> (intro a e; cases e)⟩

variable {S : Settings}

/-- The set orders yield nothing but elements of the sets. -/
def Orders (S : Settings) : Prop := ∀ k l, ∀ x ∈ S.order k l, x ∈ l

theorem tick : FootI0 b n tick := fun s c _ =>
  ⟨Spared.refl b s.heap, ⟨c.heap, ⟨c.knows.container, c.knows.attractive, c.knows.ranking, c.knows.pairs, c.knows.ready⟩⟩, fun _ _ => trivial⟩

theorem ordered0 {l : List Nat} : FootI0 b n (ordered S l) := then0 tick fun _ _ _ => pure0 _

theorem ordered (o : Orders S) {l : List Nat} (hl : ∀ r ∈ l, InR b n r) : FootI b n (ordered S l) fun n' l' => ∀ r ∈ l', InR b n' r :=
  then0 tick fun _ k l1 => pure fun _ l2 r hr => ((hl r (o k l r hr)).up l1).up l2

theorem iterRoutes (o : Orders S) : FootI b n (iterRoutes S) fun n' l => ∀ r ∈ l, InR b n' r :=
  asking fun _ c _ => ordered o fun r hr => by
    obtain ⟨e, he, rfl⟩ := List.mem_map.1 hr
    exact c.knows.container e he

theorem mem_dictSet {d : List (Nat × β)} {k : Nat} {v : β} {e : Nat × β} (he : e ∈ dictSet d k v) : e ∈ d ∨ e = (k, v) := by
  unfold dictSet at he
  split_ifs at he
  · obtain ⟨x, hx, rfl⟩ := List.mem_map.1 he
    split_ifs
    · exact .inr rfl
    · exact .inl hx
  · simpa using he

theorem dictGet {d : List (Nat × β)} {k : Nat} {Q : Region → β → Prop} (hq : ∀ e ∈ d, ∀ n', n.Le n' → Q n' e.2) :
    FootI b n (dictGet d k) Q := by
  refine unwrap fun v e => ?_
  induction d with
  | nil => cases e
  | cons x d ih =>
    obtain ⟨j, w⟩ := x
    rw [List.lookup_cons] at e
    cases ek : k == j with
    | true => rw [ek] at e; cases e; exact hq (j, v) (by simp)
    | false => rw [ek] at e; exact ih (fun y hy => hq y (by simp [hy])) e

/-! ## Attractive routes -/

theorem knownAttractive (o : Orders S) : FootI b n (knownAttractive S) fun n' l => ∀ r ∈ l, InR b n' r := by
  refine asking fun s c g => ?_
  cases e : s.attractive with
  | some a => exact pure fun _ l r hr => (c.knows.attractive a e r hr).up l
  | none => exact bind (iterRoutes o) fun _ _ _ hl => pure fun _ l r hr => (hl r (List.mem_of_mem_filter hr)).up l

theorem completeAttractive (o : Orders S) {a : List Nat} (ha : ∀ r ∈ a, InR b n r) :
    FootI b n (completeAttractive S a) fun n' l => ∀ r ∈ l, InR b n' r := by
  refine asking fun s c g => ite (pure fun _ l r hr => ((ha r hr).up g).up l) (bind (iterRoutes o) fun n1 rs l1 hrs => ?_)
  cases e : rs.find? (fun r => !routeLoaded s.heap.core r) with
  | none => exact pure fun _ l r hr => (ha r hr).up (g.trans (l1.trans l))
  | some q =>
    refine pure fun _ l r hr => ?_
    split_ifs at hr
    · exact (ha r hr).up (g.trans (l1.trans l))
    · rcases List.mem_append.1 hr with hr | hr
      · exact (ha r hr).up (g.trans (l1.trans l))
      · rw [List.mem_singleton.1 hr]; exact (hrs q (List.mem_of_find?_eq_some e)).up l

theorem attractiveRoutes (o : Orders S) : FootI b n (attractiveRoutes S) fun n' l => ∀ r ∈ l, InR b n' r := by
  refine bind (knownAttractive o) fun n1 a l1 ha => bind (completeAttractive o ha) fun n2 a' l2 ha' => ?_
  refine then0 (note (fun _ => rfl) fun s c g => ?_) fun n3 _ l3 => pure fun _ l4 r hr => ((ha' r hr).up l3).up l4
  exact ⟨c.knows.container, fun x e r hr => by cases e; exact (ha' r hr).up g, c.knows.ranking, c.knows.pairs, c.knows.ready⟩

theorem markTripDone {t : Nat} : FootI0 b n (markTripDone t) :=
  asking fun _ _ _ => ite (note (fun _ => rfl) fun _ c _ => ⟨c.knows.container, c.knows.attractive, c.knows.ranking, c.knows.pairs, c.knows.ready⟩) (raise _)

theorem setRoute {mark : Nat → IterM Unit} (hm : ∀ n' p, n.Le n' → FootI0 b n' (mark p)) {r : Nat} (hr : InR b n r) :
    FootI0 b n (setRoute mark r) := by
  refine asking fun s c g => bind (dictGet (Q := fun _ _ => True) fun _ _ _ _ => trivial) fun n1 old l1 _ => ?_
  refine then0 (note (fun _ => rfl) fun s' c' g' => ?_) fun n2 _ l2 => forEach _ _ fun p _ n3 l3 => ite (pure0 _) (hm n3 p (g.trans (l1.trans (l2.trans l3))))
  refine ⟨fun e he => ?_, c'.knows.attractive, c'.knows.ranking, c'.knows.pairs, c'.knows.ready⟩
  rcases mem_dictSet he with he | rfl
  · exact c'.knows.container e he
  · exact hr.up (g.trans (l1.trans g'))

/-! ## Ranking -/

theorem strategyCompute {k r : Nat} {ts : List Nat} (hr : InR b n r) :
    Foot b n (S.strategy.compute S.env S.onlyFeasible k r ts) fun n' rs => ∀ r ∈ rs, InR b n' r := by
  cases S.strategy with
  | intensive => exact Foot.computeIntensive hr
  | tail => exact Foot.computeTail hr
  | sampling _ _ _ => exact Foot.computeSampling hr

theorem createSubRanking {r : Nat} (hr : InR b n r) : FootI b n (createSubRanking S r) fun n' l => ∀ r ∈ l, InR b n' r :=
  asking fun _ _ g => then0 ordered0 fun _ _ l1 => then0 tick fun _ _ l2 => bind (onHeap (strategyCompute (hr.up (g.trans (l1.trans l2)))))
    fun _ _ _ hl => onHeap (Foot.criterionSorted hl)

theorem rank {v : IterState → Nat} {l : List Nat} (hl : ∀ r ∈ l, InR b n r) :
    FootI0 b n (Py.modify fun s => { s with ranking := dictSet s.ranking (v s) l }) :=
  note (fun _ => rfl) fun s c g => ⟨c.knows.container, c.knows.attractive, fun e he r hr => by
    rcases mem_dictSet he with he | rfl
    · exact c.knows.ranking e he r hr
    · exact (hl r hr).up g, c.knows.pairs, c.knows.ready⟩

theorem initializeRanking (o : Orders S) : FootI0 b n (initializeRanking S) :=
  bind (attractiveRoutes o) fun _ _ _ ha => bind (ordered o ha) fun _ _ _ ha => forEach _ _ fun r hr _ l =>
    bind (createSubRanking ((ha r hr).up l)) fun _ _ _ hl => rank hl

theorem lookup_mem {d : List (Nat × β)} {k : Nat} {v : β} (e : d.lookup k = some v) : ∃ x ∈ d, x.2 = v := by
  induction d with
  | nil => cases e
  | cons x d ih =>
    obtain ⟨j, w⟩ := x
    rw [List.lookup_cons] at e
    cases ek : k == j with
    | true => rw [ek] at e; cases e; exact ⟨(j, v), by simp, rfl⟩
    | false =>
      rw [ek] at e
      obtain ⟨y, hy, e⟩ := ih e
      exact ⟨y, by simp [hy], e⟩

theorem updateVehicleRanking {p v : Nat} : FootI0 b n (updateVehicleRanking S p v) := by
  refine asking fun s c g => ?_
  have anew : FootI0 b (of s.heap.core) (do
      let l ← Jinete.createSubRanking S (← Jinete.dictGet s.container v)
      Py.modify fun s => { s with ranking := dictSet s.ranking v l }) :=
    bind (dictGet (Q := fun n' r => InR b n' r) fun e he _ l => (c.knows.container e he).up l) fun _ _ _ hr =>
      bind (createSubRanking hr) fun _ _ _ hl => rank (v := fun _ => v) hl
  cases e : s.ranking.lookup v with
  | none => exact anew
  | some l =>
    obtain ⟨x, hx, rfl⟩ := lookup_mem e
    refine ite anew (note (fun _ => rfl) fun s' c' g' => ⟨c'.knows.container, c'.knows.attractive, fun e he r hr => ?_, c'.knows.pairs, c'.knows.ready⟩)
    rcases mem_dictSet he with he | rfl
    · exact c'.knows.ranking e he r hr
    · exact (c.knows.ranking x hx r (List.mem_of_mem_filter hr)).up g'

theorem updateRanking (o : Orders S) {p : Nat} : FootI0 b n (updateRanking S p) :=
  bind (attractiveRoutes o) fun _ _ _ ha => bind (ordered o ha) fun _ _ _ _ => forEach _ _ fun _ _ _ _ => asking fun _ _ _ => updateVehicleRanking

theorem markRanked (o : Orders S) {p : Nat} : FootI0 b n (markRanked S p) :=
  asking fun _ _ _ => then0 markTripDone fun _ _ _ => updateRanking o

theorem outOfReach {cand : List Nat} {r : Nat} (hc : ∀ q ∈ cand, InR b n q) (hr : InR b n r) : FootI0 b n (outOfReach S cand r) := by
  refine ite ?_ (pure0 _)
  cases e : cand.getLast? with
  | none => exact raise _
  | some z =>
    refine bind (onHeap (Foot.criterionBest fun x hx => ?_)) fun _ _ _ _ => pure0 _
    simp only [List.mem_cons, Option.some.injEq, List.not_mem_nil, or_false] at hx
    rcases hx with rfl | rfl
    · exact hc _ (List.mem_of_getLast? e)
    · exact hr

theorem scanSub : ∀ (l cand : List Nat) {n : Region}, (∀ q ∈ l, InR b n q) → (∀ q ∈ cand, InR b n q) →
    FootI b n (scanSub S l cand) fun n' l => ∀ r ∈ l, InR b n' r
  | [], _, _, _, hc => pure fun _ l r hr => (hc r hr).up l
  | q :: l, cand, _, hl, hc => by
    refine then0 (outOfReach hc (hl q (by simp))) fun n1 _ l1 => ite (pure fun _ l r hr => ((hc r hr).up l1).up l) ?_
    refine scanSub l _ (fun x hx => (hl x (by simp [hx])).up l1) fun x hx => ?_
    rcases List.mem_append.1 hx with hx | hx
    · split_ifs at hx
      · exact (hc x ((List.dropLast_sublist _).mem hx)).up l1
      · exact (hc x hx).up l1
    · rw [List.mem_singleton.1 hx]; exact (hl q (by simp)).up l1

theorem scanRanking : ∀ (d : List (Nat × List Nat)) (cand : List Nat) {n : Region}, (∀ e ∈ d, ∀ q ∈ e.2, InR b n q) → (∀ q ∈ cand, InR b n q) →
    FootI b n (scanRanking S d cand) fun n' l => ∀ r ∈ l, InR b n' r
  | [], _, _, _, hc => pure fun _ l r hr => (hc r hr).up l
  | (v, sub) :: d, cand, _, hd, hc => by
    refine ite (scanRanking d cand (fun e he => hd e (by simp [he])) hc) ?_
    refine bind (scanSub sub cand (fun q hq => hd (v, sub) (by simp) q hq) hc) fun n1 c1 l1 h1 => bind (onHeap (Foot.criterionSorted h1)) fun n2 c2 l2 h2 => ?_
    exact scanRanking d c2 (fun e he q hq => (hd e (by simp [he]) q hq).up (l1.trans l2)) h2

theorem nextRanked : FootI b n (nextRanked S) fun n' r => InR b n' r := by
  refine asking fun s c g => ite (raise _) (bind (scanRanking s.ranking [] c.knows.ranking fun _ h => (nomatch h)) fun n1 cand l1 hc => ite (raise _) ?_)
  exact then0 tick fun _ _ l2 => index fun r hr _ l3 => (hc r hr).up (l2.trans l3)

/-! ## The stateless iterator -/

theorem markStateless {p : Nat} : FootI0 b n (markStateless p) :=
  asking fun _ _ _ => then0 markTripDone fun _ _ _ => note (fun _ => rfl) fun _ c _ =>
    ⟨c.knows.container, c.knows.attractive, c.knows.ranking, fun _ e => (nomatch e), fun _ e => (nomatch e)⟩

theorem setGen {ps : List (Nat × Nat)} {rs : List Nat} (hp : ∀ e ∈ ps, InR b n e.1) (hr : ∀ r ∈ rs, InR b n r) :
    FootI0 b n (Py.modify fun s => { s with gen := some (ps, rs) }) :=
  note (fun _ => rfl) fun s c g => ⟨c.knows.container, c.knows.attractive, c.knows.ranking, fun x e y hy => by cases e; exact (hp y hy).up g,
    fun x e y hy => by cases e; exact (hr y hy).up g⟩

theorem advance : ∀ (ps : List (Nat × Nat)) (rs : List Nat) {n : Region}, (∀ e ∈ ps, InR b n e.1) → (∀ r ∈ rs, InR b n r) →
    FootI b n (advance S ps rs) fun n' r => InR b n' r
  | ps, r :: rs, _, hp, hr => by
    rw [Jinete.advance]
    exact then0 (setGen hp fun q hq => hr q (by simp [hq])) fun _ _ l => pure fun _ l' => ((hr r (by simp)).up l).up l'
  | [], [], _, _, _ => by
    rw [Jinete.advance]
    exact then0 (setGen (fun _ h => (nomatch h)) fun _ h => (nomatch h)) fun _ _ _ => raise _
  | (r, t) :: ps, [], _, hp, _ => by
    rw [Jinete.advance]
    refine then0 tick fun n1 k l1 => bind (onHeap (strategyCompute ((hp (r, t) (by simp)).up l1))) fun n2 rs l2 hrs => ?_
    have hp' : ∀ e ∈ ps, InR b n2 e.1 := fun e he => (hp e (by simp [he])).up (l1.trans l2)
    cases rs with
    | nil => exact advance ps [] hp' fun _ h => (nomatch h)
    | cons q rs => exact then0 (setGen hp' fun x hx => hrs x (by simp [hx])) fun _ _ l => pure fun _ l' => ((hrs q (by simp)).up l).up l'

theorem nextStateless (o : Orders S) : FootI b n (nextStateless S) fun n' r => InR b n' r := by
  refine bind (Q := fun n' x => (∀ e ∈ x.1, InR b n' e.1) ∧ ∀ r ∈ x.2, InR b n' r) ?_ fun n' x _ hx => advance x.1 x.2 hx.1 hx.2
  refine asking fun s c g => ?_
  cases e : s.gen with
  | some x => exact pure fun _ l => ⟨fun y hy => (c.knows.pairs x e y hy).up l, fun y hy => (c.knows.ready x e y hy).up l⟩
  | none =>
    refine bind (attractiveRoutes o) fun _ _ _ ha => bind (ordered o ha) fun _ a _ ha => then0 ordered0 fun _ ts l => pure fun _ l' =>
      ⟨fun y hy => ?_, fun _ h => (nomatch h)⟩
    obtain ⟨r, hr, hy⟩ := List.mem_flatMap.1 hy
    obtain ⟨t, _, rfl⟩ := List.mem_map.1 hy
    exact ((ha r hr).up l).up l'

/-! ## The algorithm -/

theorem insertionLoop {next : IterM Nat} {mark : Nat → IterM Unit} (hn : ∀ n', n.Le n' → FootI b n' next fun n' r => InR b n' r)
    (hm : ∀ n' p, n.Le n' → FootI0 b n' (mark p)) : ∀ (k : Nat) {n' : Region}, n.Le n' → FootI0 b n' (insertionLoop S next mark k)
  | 0, _, _ => raise _
  | k + 1, n', l0 => by
    refine bind (catchStop (hn n' l0)) fun n1 x l1 hx => ?_
    cases x with
    | none => exact pure0 _
    | some r =>
      refine then0 (onHeap (Foot.routeFeasible (hx r rfl))) fun n2 _ l2 => ite ?_ (pure0 _)
      have l02 := l0.trans (l1.trans l2)
      exact then0 (setRoute (fun n'' p l => hm n'' p (l02.trans l)) ((hx r rfl).up l2)) fun _ _ l3 => insertionLoop hn hm k (l02.trans l3)

/-- The part of the constructor after the routes were made. -/
def fillContainer (S : Settings) (routes : Option (List Nat)) (rs : List Nat) : IterM Unit := do
  let s ← Py.read
  let done := if routes.isSome then rs.flatMap (routeTrips s.heap.core) else []
  let rs ← Jinete.ordered S rs
  Py.modify fun s => { s with
    container := rs.foldl (fun d r => dictSet d (s.heap.core.route r).vehicle r) []
    attractive := none
    pending := S.job.filter fun t => t ∉ done }

theorem fill (o : Orders S) {routes : Option (List Nat)} {rs : List Nat} (hr : ∀ r ∈ rs, InR b n r) : FootI0 b n (fillContainer S routes rs) := by
  refine asking fun s c g => bind (ordered o fun r h => (hr r h).up g) fun n1 rs l1 hrs => note (fun _ => rfl) fun s' c' g' => ?_
  refine ⟨?_, fun _ e => (nomatch e), c'.knows.ranking, c'.knows.pairs, c'.knows.ready⟩
  have key : ∀ (l : List Nat) (d : List (Nat × Nat)), (∀ r ∈ l, InR b (of s'.heap.core) r) → (∀ e ∈ d, InR b (of s'.heap.core) e.2) →
      ∀ e ∈ l.foldl (fun d r => dictSet d (s'.heap.core.route r).vehicle r) d, InR b (of s'.heap.core) e.2 := by
    intro l
    induction l with
    | nil => exact fun d _ hd => hd
    | cons x l ih =>
      refine fun d hl hd => ih _ (fun r h => hl r (by simp [h])) fun e he => ?_
      rcases mem_dictSet he with he | rfl
      · exact hd e he
      · exact hl x (by simp)
  exact key rs [] (fun r h => (hrs r h).up g') fun _ h => (nomatch h)

theorem newRoutes : FootI b n (startingRoutes S none) fun n' l => ∀ r ∈ l, InR b n' r :=
  then0 ordered0 fun _ vs _ => mapEach (Q := fun n' r => InR b n' r) (fun _ _ _ l h => InR.up h l) vs _ fun _ _ _ _ => onHeap Foot.newRoute

/-- The ranking algorithm after the routes were made. -/
theorem rankingRest (o : Orders S) {routes : Option (List Nat)} {rs : List Nat} {fuel : Nat} (hr : ∀ r ∈ rs, InR b n r) :
    FootI b n (do
      fillContainer S routes rs
      Jinete.initializeRanking S
      Jinete.insertionLoop S (Jinete.nextRanked S) (Jinete.markRanked S) fuel
      Jinete.iterRoutes S) fun n' l => ∀ r ∈ l, InR b n' r :=
  then0 (fill o hr) fun _ _ _ => then0 (initializeRanking o) fun _ _ _ => then0 (insertionLoop (fun _ _ => nextRanked) (fun _ _ _ => markRanked o) fuel (Le.refl _))
    fun _ _ _ => iterRoutes o

/-- The stateless algorithm after the routes were made. -/
theorem statelessRest (o : Orders S) {routes : Option (List Nat)} {rs : List Nat} {fuel : Nat} (hr : ∀ r ∈ rs, InR b n r) :
    FootI b n (do
      fillContainer S routes rs
      Jinete.insertionLoop S (Jinete.nextStateless S) Jinete.markStateless fuel
      Jinete.iterRoutes S) fun n' l => ∀ r ∈ l, InR b n' r :=
  then0 (fill o hr) fun _ _ _ => then0 (insertionLoop (fun _ _ => nextStateless o) (fun _ _ _ => markStateless) fuel (Le.refl _))
    fun _ _ _ => iterRoutes o

end FootI

end Jinete
