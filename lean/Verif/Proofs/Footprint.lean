import Verif.Model.LocalSearch
import Verif.Spec.Isolation

/-!
# What a computation can reach

A region is everything numbered from given bounds on. If the objects of a region refer only to objects of the region, a
computation that starts from objects of the region changes nothing outside, whether it returns or raises.
-/

set_option autoImplicit false

namespace Jinete

variable {α β : Type}

/-- Three numbers: of stops, planned trips and routes. -/
structure Region where
  s : Nat
  p : Nat
  r : Nat

namespace Region

/-- How many objects exist. -/
def of (c : Core) : Region := ⟨c.nStop, c.nPt, c.nRoute⟩

/-- Componentwise order. -/
structure Le (a b : Region) : Prop where
  s : a.s ≤ b.s
  p : a.p ≤ b.p
  r : a.r ≤ b.r

theorem Le.refl (a : Region) : a.Le a := ⟨Nat.le_refl _, Nat.le_refl _, Nat.le_refl _⟩
theorem Le.trans {a b c : Region} (x : a.Le b) (y : b.Le c) : a.Le c :=
  ⟨Nat.le_trans x.s y.s, Nat.le_trans x.p y.p, Nat.le_trans x.r y.r⟩

end Region

open Region

/-- Stop `s` lies between the bounds. -/
def InS (b n : Region) (s : Nat) : Prop := b.s ≤ s ∧ s < n.s
/-- Planned trip `p` lies between the bounds. -/
def InP (b n : Region) (p : Nat) : Prop := b.p ≤ p ∧ p < n.p
/-- Route `r` lies between the bounds. -/
def InR (b n : Region) (r : Nat) : Prop := b.r ≤ r ∧ r < n.r

theorem InS.up {b n n' : Region} {s : Nat} (x : InS b n s) (l : n.Le n') : InS b n' s := ⟨x.1, Nat.lt_of_lt_of_le x.2 l.s⟩
theorem InP.up {b n n' : Region} {s : Nat} (x : InP b n s) (l : n.Le n') : InP b n' s := ⟨x.1, Nat.lt_of_lt_of_le x.2 l.p⟩
theorem InR.up {b n n' : Region} {s : Nat} (x : InR b n s) (l : n.Le n') : InR b n' s := ⟨x.1, Nat.lt_of_lt_of_le x.2 l.r⟩

/-- What a stop refers to lies between the bounds. -/
structure StopRefs (b n : Region) (x : StopCore) : Prop where
  prev : ∀ q, x.previous = some q → InS b n q
  picks : ∀ p ∈ x.pickups, InP b n p
  drops : ∀ p ∈ x.deliveries, InP b n p

/-- What a planned trip refers to lies between the bounds. -/
structure PtRefs (b n : Region) (x : PtCore) : Prop where
  pick : ∀ q, x.pickup = some q → InS b n q
  drop : ∀ q, x.delivery = some q → InS b n q

theorem StopRefs.up {b n n' : Region} {x : StopCore} (k : StopRefs b n x) (l : n.Le n') : StopRefs b n' x :=
  ⟨fun q e => (k.prev q e).up l, fun p e => (k.picks p e).up l, fun p e => (k.drops p e).up l⟩
theorem PtRefs.up {b n n' : Region} {x : PtCore} (k : PtRefs b n x) (l : n.Le n') : PtRefs b n' x :=
  ⟨fun q e => (k.pick q e).up l, fun q e => (k.drop q e).up l⟩

/-- The objects from the bounds `b` on refer only to such objects. -/
structure Enclosed (b : Region) (c : Core) : Prop where
  le : b.Le (of c)
  stop : ∀ s, InS b (of c) s → StopRefs b (of c) (c.stop s)
  pt : ∀ p, InP b (of c) p → PtRefs b (of c) (c.pt p)
  route : ∀ r, InR b (of c) r → ∀ s ∈ (c.route r).stops, InS b (of c) s

/-- Nothing below the bounds changed. -/
structure Spared (b : Region) (h h' : Heap) : Prop where
  up : (of h.core).Le (of h'.core)
  stop : ∀ x, x < b.s → h'.core.stop x = h.core.stop x ∧ h'.arr x = h.arr x ∧ h'.dep x = h.dep x ∧ h'.cap x = h.cap x ∧
    h'.sfeas x = h.sfeas x
  pt : ∀ p, p < b.p → h'.core.pt p = h.core.pt p ∧ h'.pfeas p = h.pfeas p
  route : ∀ q, q < b.r → h'.core.route q = h.core.route q ∧ h'.rfeas q = h.rfeas q

theorem Spared.refl (b : Region) (h : Heap) : Spared b h h :=
  ⟨Le.refl _, fun _ _ => ⟨rfl, rfl, rfl, rfl, rfl⟩, fun _ _ => ⟨rfl, rfl⟩, fun _ _ => ⟨rfl, rfl⟩⟩

theorem Spared.trans {b : Region} {h1 h2 h3 : Heap} (x : Spared b h1 h2) (y : Spared b h2 h3) : Spared b h1 h3 where
  up := x.up.trans y.up
  stop s hs := by
    obtain ⟨a1, a2, a3, a4, a5⟩ := x.stop s hs
    obtain ⟨b1, b2, b3, b4, b5⟩ := y.stop s hs
    exact ⟨b1.trans a1, b2.trans a2, b3.trans a3, b4.trans a4, b5.trans a5⟩
  pt p hp := ⟨(y.pt p hp).1.trans (x.pt p hp).1, (y.pt p hp).2.trans (x.pt p hp).2⟩
  route p hp := ⟨(y.route p hp).1.trans (x.route p hp).1, (y.route p hp).2.trans (x.route p hp).2⟩

/-- Started when the region is closed and at least `n` objects exist, the computation stays in the region; `Q` holds of
what it yields and the number of objects then. -/
def Foot (b n : Region) (m : M α) (Q : Region → α → Prop) : Prop :=
  ∀ h, Enclosed b h.core → n.Le (of h.core) →
    Spared b h (m h).2 ∧ Enclosed b (m h).2.core ∧ ∀ a, (m h).1 = .ok a → Q (of (m h).2.core) a

/-- The same, with nothing said about what is yielded. -/
abbrev Foot0 (b n : Region) (m : M α) : Prop := Foot b n m fun _ _ => True

namespace Foot

variable {b n : Region}

theorem weaken {m : M α} {Q Q' : Region → α → Prop} (hm : Foot b n m Q) (hq : ∀ n' a, n.Le n' → Q n' a → Q' n' a) : Foot b n m Q' :=
  fun h c g => ⟨(hm h c g).1, (hm h c g).2.1, fun a e => hq _ a (g.trans (hm h c g).1.up) ((hm h c g).2.2 a e)⟩

theorem any {m : M α} {Q : Region → α → Prop} (hm : Foot b n m Q) : Foot0 b n m := hm.weaken fun _ _ _ _ => trivial

theorem up {m : M α} {Q : Region → α → Prop} {n' : Region} (hm : Foot b n m Q) (l : n.Le n') : Foot b n' m Q :=
  fun h c g => hm h c (l.trans g)

theorem pure {a : α} {Q : Region → α → Prop} (hq : ∀ n', n.Le n' → Q n' a) : Foot b n (Pure.pure a : M α) Q :=
  fun h c g => ⟨Spared.refl b h, c, fun a' e => by cases e; exact hq _ g⟩

theorem pure0 (a : α) : Foot0 b n (Pure.pure a : M α) := pure fun _ _ => trivial

theorem raise (e : Err) {Q : Region → α → Prop} : Foot b n (Py.raise e : M α) Q :=
  fun h c _ => ⟨Spared.refl b h, c, fun _ e => by cases e⟩

theorem bind {m : M α} {f : α → M β} {Q : Region → α → Prop} {Q' : Region → β → Prop} (hm : Foot b n m Q)
    (hf : ∀ n' a, n.Le n' → Q n' a → Foot b n' (f a) Q') : Foot b n (m >>= f) Q' := by
  intro h c g
  rw [Py.bind_run]
  obtain ⟨x, y, z⟩ := hm h c g
  cases e : m h with
  | mk a h1 =>
    rw [e] at x y z
    cases a with
    | ok a =>
      obtain ⟨x', y', z'⟩ := hf _ a (g.trans x.up) (z a rfl) h1 y (Le.refl _)
      exact ⟨x.trans x', y', z'⟩
    | error e => exact ⟨x, y, fun _ e => by cases e⟩

theorem then0 {m : M α} {f : α → M β} {Q' : Region → β → Prop} (hm : Foot0 b n m) (hf : ∀ n' a, n.Le n' → Foot b n' (f a) Q') :
    Foot b n (m >>= f) Q' := bind hm fun n' a l _ => hf n' a l

/-- Reading the state first. -/
theorem asking {f : Heap → M β} {Q : Region → β → Prop}
    (hf : ∀ h, Enclosed b h.core → n.Le (of h.core) → Foot b (of h.core) (f h) Q) : Foot b n (Py.read >>= f) Q := by
  intro h c g
  rw [Py.read_bind]
  exact hf h c g h c (Le.refl _)

theorem assert {x : Bool} : Foot0 b n (Py.assert x : M Unit) := by
  cases x
  · exact raise _
  · exact pure0 _

theorem unwrap {e : Err} {o : Option α} {Q : Region → α → Prop} (hq : ∀ a, o = some a → ∀ n', n.Le n' → Q n' a) :
    Foot b n (Py.unwrap e o : M α) Q := by
  cases o with
  | none => exact raise _
  | some a => exact pure fun n' l => hq a rfl n' l

theorem index {l : List α} {i : Nat} {Q : Region → α → Prop} (hq : ∀ a ∈ l, ∀ n', n.Le n' → Q n' a) :
    Foot b n (Py.index l i : M α) Q := by
  unfold Py.index
  cases e : l[i]? with
  | none => exact raise _
  | some a => exact pure fun n' l' => hq a (List.mem_of_getElem? e) n' l'

theorem ite {p : Prop} [Decidable p] {x y : M α} {Q : Region → α → Prop} (hx : Foot b n x Q) (hy : Foot b n y Q) :
    Foot b n (if p then x else y) Q := by
  split_ifs
  · exact hx
  · exact hy

/-- What is found in order, each under the same description, which stays true as objects are created. -/
theorem mapEach {f : α → M β} {Q : Region → β → Prop} (hQ : ∀ n n' a, Region.Le n n' → Q n a → Q n' a) :
    ∀ (l : List α) (n : Region), (∀ a ∈ l, ∀ n', n.Le n' → Foot b n' (f a) Q) →
      Foot b n (Py.mapEach l f) fun n' ys => ∀ y ∈ ys, Q n' y
  | [], _, _ => pure fun _ _ y hy => (nomatch hy)
  | x :: l, n, hf => by
    show Foot b n (f x >>= fun y => Py.mapEach l f >>= fun ys => Pure.pure (y :: ys)) _
    refine bind (hf x (by simp) n (Le.refl _)) fun n1 y l1 hy => ?_
    refine bind (mapEach hQ l n1 fun a ha n' l' => hf a (by simp [ha]) n' (l1.trans l')) fun n2 ys l2 hys => pure fun n3 l3 z hz => ?_
    rcases List.mem_cons.1 hz with rfl | hz
    · exact hQ n1 n3 _ (l2.trans l3) hy
    · exact hQ n2 n3 _ l3 (hys z hz)

theorem mapEach0 {f : α → M β} (l : List α) (hf : ∀ a ∈ l, ∀ n', n.Le n' → Foot0 b n' (f a)) : Foot0 b n (Py.mapEach l f) :=
  (mapEach (Q := fun _ _ => True) (fun _ _ _ _ _ => trivial) l n hf).any

theorem forEach {f : α → M Unit} : ∀ (l : List α) (n : Region), (∀ a ∈ l, ∀ n', n.Le n' → Foot0 b n' (f a)) →
    Foot0 b n (Py.forEach l f)
  | [], _, _ => pure0 _
  | x :: l, n, hf => by
    show Foot b n (f x >>= fun _ => Py.forEach l f) _
    exact then0 (hf x (by simp) n (Le.refl _)) fun n1 _ l1 => forEach l n1 fun a ha n' l' => hf a (by simp [ha]) n' (l1.trans l')

/-- An update. -/
theorem modify {f : Heap → Heap} {Q : Region → Unit → Prop}
    (hf : ∀ h, Enclosed b h.core → n.Le (of h.core) → Spared b h (f h) ∧ Enclosed b (f h).core)
    (hq : ∀ n', n.Le n' → Q n' ()) : Foot b n (Py.modify f) Q :=
  fun h c g => ⟨(hf h c g).1, (hf h c g).2, fun _ _ => hq _ (g.trans (hf h c g).1.up)⟩

theorem modify0 {f : Heap → Heap} (hf : ∀ h, Enclosed b h.core → n.Le (of h.core) → Spared b h (f h) ∧ Enclosed b (f h).core) :
    Foot0 b n (Py.modify f) := modify hf fun _ _ => trivial

end Foot

/-! ## Updates of the heap -/

section updates

variable {b : Region} {h : Heap}

theorem update_below {α : Type} {f : Nat → α} {k x b : Nat} {v : α} (hb : b ≤ k) (hx : x < b) : Function.update f k v x = f x :=
  Function.update_of_ne (by omega) _ _

/-- Memoised values of stops. -/
theorem spared_memo {f1 f2 f3 : Nat → Option ℚ} {f4 f5 f6 : Nat → Option Bool} (h1 : ∀ x, x < b.s → f1 x = h.arr x)
    (h2 : ∀ x, x < b.s → f2 x = h.dep x) (h3 : ∀ x, x < b.s → f3 x = h.cap x) (h4 : ∀ x, x < b.s → f4 x = h.sfeas x)
    (h5 : ∀ x, x < b.p → f5 x = h.pfeas x) (h6 : ∀ x, x < b.r → f6 x = h.rfeas x) :
    Spared b h ⟨h.core, f1, f2, f3, f4, f5, f6⟩ :=
  ⟨Le.refl _, fun x hx => ⟨rfl, h1 x hx, h2 x hx, h3 x hx, h4 x hx⟩, fun x hx => ⟨rfl, h5 x hx⟩, fun x hx => ⟨rfl, h6 x hx⟩⟩

theorem foot_setStop {s : Nat} {x : StopCore} (c : Enclosed b h.core) (hs : b.s ≤ s)
    (hx : StopRefs b (of h.core) x) : Spared b h (h.setStop s x) ∧ Enclosed b (h.setStop s x).core := by
  refine ⟨⟨Le.refl _, fun y hy => ⟨update_below hs hy, rfl, rfl, rfl, rfl⟩, fun _ _ => ⟨rfl, rfl⟩, fun _ _ => ⟨rfl, rfl⟩⟩,
    ⟨c.le, fun y hy => ?_, c.pt, c.route⟩⟩
  show StopRefs b (of h.core) (Function.update h.core.stop s x y)
  by_cases e : y = s
  · subst e; rw [Function.update_self]; exact hx
  · rw [Function.update_of_ne e]; exact c.stop y hy

theorem foot_setPt {p : Nat} {x : PtCore} (c : Enclosed b h.core) (hp : b.p ≤ p)
    (hx : PtRefs b (of h.core) x) : Spared b h (h.setPt p x) ∧ Enclosed b (h.setPt p x).core := by
  refine ⟨⟨Le.refl _, fun _ _ => ⟨rfl, rfl, rfl, rfl, rfl⟩, fun y hy => ⟨update_below hp hy, rfl⟩, fun _ _ => ⟨rfl, rfl⟩⟩,
    ⟨c.le, c.stop, fun y hy => ?_, c.route⟩⟩
  show PtRefs b (of h.core) (Function.update h.core.pt p x y)
  by_cases e : y = p
  · subst e; rw [Function.update_self]; exact hx
  · rw [Function.update_of_ne e]; exact c.pt y hy

theorem foot_setRoute {r : Nat} {x : RouteCore} (c : Enclosed b h.core) (hr : b.r ≤ r)
    (hx : ∀ s ∈ x.stops, InS b (of h.core) s) : Spared b h (h.setRoute r x) ∧ Enclosed b (h.setRoute r x).core := by
  refine ⟨⟨Le.refl _, fun _ _ => ⟨rfl, rfl, rfl, rfl, rfl⟩, fun _ _ => ⟨rfl, rfl⟩, fun y hy => ⟨update_below hr hy, rfl⟩⟩,
    ⟨c.le, c.stop, c.pt, fun y hy => ?_⟩⟩
  show ∀ s ∈ (Function.update h.core.route r x y).stops, InS b (of h.core) s
  by_cases e : y = r
  · subst e; rw [Function.update_self]; exact hx
  · rw [Function.update_of_ne e]; exact c.route y hy

theorem foot_allocStop {x : StopCore} (c : Enclosed b h.core) (hx : StopRefs b (of h.core) x) :
    Spared b h (h.allocStop x) ∧ Enclosed b (h.allocStop x).core := by
  have l : (of h.core).Le (of (h.allocStop x).core) := ⟨Nat.le_succ _, Nat.le_refl _, Nat.le_refl _⟩
  have hb : b.s ≤ h.core.nStop := c.le.s
  refine ⟨⟨l, fun y hy => ⟨update_below hb hy, update_below hb hy, update_below hb hy, update_below hb hy, update_below hb hy⟩,
    fun _ _ => ⟨rfl, rfl⟩, fun _ _ => ⟨rfl, rfl⟩⟩, ⟨c.le.trans l, fun y hy => ?_, fun p hp => (c.pt p hp).up l,
    fun r hr s hs => (c.route r hr s hs).up l⟩⟩
  show StopRefs b (of (h.allocStop x).core) (Function.update h.core.stop h.core.nStop x y)
  by_cases e : y = h.core.nStop
  · subst e; rw [Function.update_self]; exact hx.up l
  · rw [Function.update_of_ne e]
    have h2 : y < h.core.nStop + 1 := hy.2
    exact (c.stop y ⟨hy.1, show y < h.core.nStop by omega⟩).up l

theorem foot_allocPt {x : PtCore} (c : Enclosed b h.core) (hx : PtRefs b (of h.core) x) :
    Spared b h (h.allocPt x) ∧ Enclosed b (h.allocPt x).core := by
  have l : (of h.core).Le (of (h.allocPt x).core) := ⟨Nat.le_refl _, Nat.le_succ _, Nat.le_refl _⟩
  have hb : b.p ≤ h.core.nPt := c.le.p
  refine ⟨⟨l, fun _ _ => ⟨rfl, rfl, rfl, rfl, rfl⟩, fun y hy => ⟨update_below hb hy, update_below hb hy⟩, fun _ _ => ⟨rfl, rfl⟩⟩,
    ⟨c.le.trans l, fun p hp => (c.stop p hp).up l, fun y hy => ?_, fun r hr s hs => (c.route r hr s hs).up l⟩⟩
  show PtRefs b (of (h.allocPt x).core) (Function.update h.core.pt h.core.nPt x y)
  by_cases e : y = h.core.nPt
  · subst e; rw [Function.update_self]; exact hx.up l
  · rw [Function.update_of_ne e]
    have h2 : y < h.core.nPt + 1 := hy.2
    exact (c.pt y ⟨hy.1, show y < h.core.nPt by omega⟩).up l

theorem foot_allocRoute {x : RouteCore} (c : Enclosed b h.core) (hx : ∀ s ∈ x.stops, InS b (of h.core) s) :
    Spared b h (h.allocRoute x) ∧ Enclosed b (h.allocRoute x).core := by
  have l : (of h.core).Le (of (h.allocRoute x).core) := ⟨Nat.le_refl _, Nat.le_refl _, Nat.le_succ _⟩
  have hb : b.r ≤ h.core.nRoute := c.le.r
  refine ⟨⟨l, fun _ _ => ⟨rfl, rfl, rfl, rfl, rfl⟩, fun _ _ => ⟨rfl, rfl⟩, fun y hy => ⟨update_below hb hy, update_below hb hy⟩⟩,
    ⟨c.le.trans l, fun p hp => (c.stop p hp).up l, fun p hp => (c.pt p hp).up l, fun y hy => ?_⟩⟩
  show ∀ s ∈ (Function.update h.core.route h.core.nRoute x y).stops, InS b (of (h.allocRoute x).core) s
  by_cases e : y = h.core.nRoute
  · subst e; rw [Function.update_self]; exact fun s hs => (hx s hs).up l
  · rw [Function.update_of_ne e]
    have h2 : y < h.core.nRoute + 1 := hy.2
    exact fun s hs => (c.route y ⟨hy.1, show y < h.core.nRoute by omega⟩ s hs).up l

theorem flushPt_core (h : Heap) (p : Nat) : (flushPt h p).core = h.core := rfl

theorem foot_flushPts : ∀ (l : List Nat) (h : Heap), Enclosed b h.core → (∀ p ∈ l, b.p ≤ p) →
    Spared b h (l.foldl flushPt h) ∧ Enclosed b (l.foldl flushPt h).core ∧ (l.foldl flushPt h).core = h.core
  | [], h, c, _ => ⟨Spared.refl b h, c, rfl⟩
  | p :: l, h, c, hl => by
    have h1 : Spared b h (flushPt h p) := ⟨Le.refl _, fun _ _ => ⟨rfl, rfl, rfl, rfl, rfl⟩,
      fun y hy => ⟨rfl, update_below (hl p (by simp)) hy⟩, fun _ _ => ⟨rfl, rfl⟩⟩
    obtain ⟨x, y, z⟩ := foot_flushPts l (flushPt h p) c fun q hq => hl q (by simp [hq])
    exact ⟨h1.trans x, y, z⟩

theorem foot_flushStop {s : Nat} (c : Enclosed b h.core) (hs : InS b (of h.core) s) :
    Spared b h (flushStop h s) ∧ Enclosed b (flushStop h s).core ∧ (flushStop h s).core = h.core := by
  have h1 : Spared b h { h with
      arr := Function.update h.arr s none
      dep := Function.update h.dep s none
      cap := Function.update h.cap s none } :=
    spared_memo (fun _ hx => update_below hs.1 hx) (fun _ hx => update_below hs.1 hx) (fun _ hx => update_below hs.1 hx)
      (fun _ _ => rfl) (fun _ _ => rfl) fun _ _ => rfl
  obtain ⟨x, y, z⟩ := foot_flushPts (b := b) ((h.core.stop s).pickups ++ (h.core.stop s).deliveries) { h with
      arr := Function.update h.arr s none
      dep := Function.update h.dep s none
      cap := Function.update h.cap s none } c fun p hp => by
    rcases List.mem_append.1 hp with hp | hp
    · exact ((c.stop s hs).picks p hp).1
    · exact ((c.stop s hs).drops p hp).1
  exact ⟨h1.trans x, y, z⟩

theorem foot_flushStops : ∀ (l : List Nat) (h : Heap), Enclosed b h.core → (∀ s ∈ l, InS b (of h.core) s) →
    Spared b h (flushStops h l) ∧ Enclosed b (flushStops h l).core ∧ (flushStops h l).core = h.core
  | [], h, c, _ => ⟨Spared.refl b h, c, rfl⟩
  | s :: l, h, c, hl => by
    obtain ⟨x, y, z⟩ := foot_flushStop c (hl s (by simp))
    obtain ⟨x', y', z'⟩ := foot_flushStops l (flushStop h s) y fun q hq => by rw [z]; exact hl q (by simp [hq])
    exact ⟨x.trans x', y', z'.trans z⟩

end updates

namespace Foot

variable {b n : Region} (E : Env)

/-! ## Stops -/

theorem newStop {v : Nat} {pos : Pos} {prev : Option Nat} {st : Option ℚ} (hp : ∀ q, prev = some q → InS b n q) :
    Foot b n (newStop v pos prev st) fun n' s => InS b n' s := by
  intro h c g
  obtain ⟨x, y⟩ := foot_allocStop (x := ⟨v, pos, prev, [], [], st⟩) c
    ⟨fun q e => (hp q e).up g, fun _ hp => (nomatch hp), fun _ hp => (nomatch hp)⟩
  refine ⟨x, y, fun a e => ?_⟩
  cases e
  exact ⟨c.le.s, Nat.lt_succ_self _⟩

variable {E}

theorem stopMemo {f1 f2 f3 : Heap → Nat → Option ℚ} {f4 : Heap → Nat → Option Bool}
    (h1 : ∀ h x, x < b.s → f1 h x = h.arr x) (h2 : ∀ h x, x < b.s → f2 h x = h.dep x)
    (h3 : ∀ h x, x < b.s → f3 h x = h.cap x) (h4 : ∀ h x, x < b.s → f4 h x = h.sfeas x) :
    Foot0 b n (Py.modify fun h => ⟨h.core, f1 h, f2 h, f3 h, f4 h, h.pfeas, h.rfeas⟩) :=
  modify0 fun h c _ => ⟨spared_memo (h1 h) (h2 h) (h3 h) (h4 h) (fun _ _ => rfl) fun _ _ => rfl, c⟩

end Foot

end Jinete
