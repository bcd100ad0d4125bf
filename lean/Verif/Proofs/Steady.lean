import Verif.Proofs.Timing
import Verif.Proofs.Silent
import Verif.Model.Objective

/-!
# Answers do not depend on what was asked before

Also with memoised times that are out of date. `shown` and `shownLoad` are the times and the load that a stop reports in a given
state. `Settled A F m`: the computation `m` answers alike in states related by `A`, and leaves a state related by `F`.
-/

set_option autoImplicit false

namespace Jinete

variable {E : Env}

/-! ## What is reported -/

/-- The times reported by a stop when the departure from the previous one is `t`, at position `p`. -/
def shownStep (E : Env) (h : Heap) (s : Nat) (t : ℚ) (p : Pos) : Tm :=
  let a := (h.arr s).getD (t + E.metric p (h.core.stop s).position)
  let st := max (max ((h.core.stop s).start.getD a) (stopEarliest E h.core s)) a
  ⟨a, st, (h.dep s).getD (st + stopLoadTime E h.core s)⟩

/-- The times reported by a stop, given its chain of predecessors. -/
def shown (E : Env) (h : Heap) (s : Nat) : List Nat → Tm
  | [] => shownStep E h s (E.vehicle (h.core.stop s).vehicle).origin.earliest (E.vehicle (h.core.stop s).vehicle).origin.position
  | p :: l => shownStep E h s (shown E h p l).dep (h.core.stop p).position

/-- The load reported by a stop (or the failure of the assertion), given that of the previous one. -/
def loadStep (E : Env) (h : Heap) (s : Nat) (x : Except Err ℚ) : Except Err ℚ :=
  match h.cap s with
  | some v => .ok v
  | none =>
    match x with
    | .error e => .error e
    | .ok q =>
      if 0 ≤ q + sumCapacity E h.core (h.core.stop s).pickups - sumCapacity E h.core (h.core.stop s).deliveries then
        .ok (q + sumCapacity E h.core (h.core.stop s).pickups - sumCapacity E h.core (h.core.stop s).deliveries)
      else .error .assertion

/-- The load reported by a stop, given its chain of predecessors. -/
def shownLoad (E : Env) (h : Heap) (s : Nat) : List Nat → Except Err ℚ
  | [] => loadStep E h s (.ok 0)
  | p :: l => loadStep E h s (shownLoad E h p l)

theorem shown_memo_arr {h : Heap} {s : Nat} {anc : List Nat} (ha : Anc h.core s anc) :
    ∀ (l : List Nat) (x : Nat), Anc h.core x l →
      shown E { h with arr := Function.update h.arr s (some (shown E h s anc).arr) } x l = shown E h x l := by
  intro l
  induction l with
  | nil =>
    intro x hx
    by_cases hxs : x = s
    · subst hxs
      cases hx.unique ha
      simp [shown, shownStep]
    · simp [shown, shownStep, Function.update_of_ne hxs]
  | cons p l ih =>
    intro x hx
    simp only [shown]
    rw [ih p hx.2]
    by_cases hxs : x = s
    · subst hxs
      cases hx.unique ha
      simp [shown, shownStep]
    · simp [shownStep, Function.update_of_ne hxs]

theorem shown_memo_dep {h : Heap} {s : Nat} {anc : List Nat} (ha : Anc h.core s anc) :
    ∀ (l : List Nat) (x : Nat), Anc h.core x l →
      shown E { h with dep := Function.update h.dep s (some (shown E h s anc).dep) } x l = shown E h x l := by
  intro l
  induction l with
  | nil =>
    intro x hx
    by_cases hxs : x = s
    · subst hxs
      cases hx.unique ha
      simp [shown, shownStep]
    · simp [shown, shownStep, Function.update_of_ne hxs]
  | cons p l ih =>
    intro x hx
    simp only [shown]
    rw [ih p hx.2]
    by_cases hxs : x = s
    · subst hxs
      cases hx.unique ha
      simp [shown, shownStep]
    · simp [shownStep, Function.update_of_ne hxs]

theorem shownLoad_memo {h : Heap} {s : Nat} {anc : List Nat} {v : ℚ} (ha : Anc h.core s anc) (hv : shownLoad E h s anc = .ok v) :
    ∀ (l : List Nat) (x : Nat), Anc h.core x l →
      shownLoad E { h with cap := Function.update h.cap s (some v) } x l = shownLoad E h x l := by
  intro l
  induction l with
  | nil =>
    intro x hx
    by_cases hxs : x = s
    · subst hxs
      cases hx.unique ha
      rw [hv]
      simp [shownLoad, loadStep]
    · simp [shownLoad, loadStep, Function.update_of_ne hxs]
  | cons p l ih =>
    intro x hx
    by_cases hxs : x = s
    · subst hxs
      cases hx.unique ha
      rw [hv]
      simp [shownLoad, loadStep]
    · simp only [shownLoad]
      rw [ih p hx.2]
      simp [loadStep, Function.update_of_ne hxs]

theorem shown_congr {h h' : Heap} (h1 : h'.core = h.core) (h2 : h'.arr = h.arr) (h3 : h'.dep = h.dep) :
    ∀ (l : List Nat) (x : Nat), shown E h' x l = shown E h x l := by
  intro l
  induction l with
  | nil => intro x; simp [shown, shownStep, h1, h2, h3]
  | cons p l ih => intro x; simp [shown, shownStep, h1, h2, h3, ih p]

theorem shownLoad_congr {h h' : Heap} (h1 : h'.core = h.core) (h2 : h'.cap = h.cap) :
    ∀ (l : List Nat) (x : Nat), shownLoad E h' x l = shownLoad E h x l := by
  intro l
  induction l with
  | nil => intro x; simp [shownLoad, loadStep, h1, h2]
  | cons p l ih => intro x; simp [shownLoad, loadStep, h1, h2, ih p]

/-! ## Relations between states -/

/-- The same objects, the same reported times and loads at the stops `L`; nothing was memoised at any other stop. -/
structure AlikeTimes (E : Env) (L : Nat → Prop) (h h' : Heap) : Prop where
  core : h'.core = h.core
  times : ∀ s anc, L s → Anc h.core s anc → shown E h' s anc = shown E h s anc
  load : ∀ s anc, L s → Anc h.core s anc → shownLoad E h' s anc = shownLoad E h s anc
  others : ∀ s, ¬ L s → h'.arr s = h.arr s ∧ h'.dep s = h.dep s ∧ h'.cap s = h.cap s

namespace AlikeTimes
variable {L : Nat → Prop} {h h1 h2 : Heap}

theorem refl (h : Heap) : AlikeTimes E L h h := ⟨rfl, fun _ _ _ _ => rfl, fun _ _ _ _ => rfl, fun _ _ => ⟨rfl, rfl, rfl⟩⟩
theorem symm (a : AlikeTimes E L h h1) : AlikeTimes E L h1 h :=
  ⟨a.core.symm, fun s l hs ha => (a.times s l hs (by rwa [a.core] at ha)).symm, fun s l hs ha => (a.load s l hs (by rwa [a.core] at ha)).symm,
    fun s hs => ⟨(a.others s hs).1.symm, (a.others s hs).2.1.symm, (a.others s hs).2.2.symm⟩⟩
theorem trans (a : AlikeTimes E L h h1) (b : AlikeTimes E L h1 h2) : AlikeTimes E L h h2 :=
  ⟨b.core.trans a.core, fun s l hs ha => (b.times s l hs (by rwa [a.core])).trans (a.times s l hs ha),
    fun s l hs ha => (b.load s l hs (by rwa [a.core])).trans (a.load s l hs ha),
    fun s hs => ⟨(b.others s hs).1.trans (a.others s hs).1, (b.others s hs).2.1.trans (a.others s hs).2.1,
      (b.others s hs).2.2.trans (a.others s hs).2.2⟩⟩

end AlikeTimes

/-- An equivalence of states. -/
structure AlikeNow (A : Heap → Heap → Prop) : Prop where
  refl : ∀ h, A h h
  symm : ∀ h h', A h h' → A h' h
  trans : ∀ h1 h2 h3, A h1 h2 → A h2 h3 → A h1 h3
  core : ∀ h h', A h h' → h'.core = h.core

/-- In states with the objects `c`: the same answer in states related by `A`; the state afterwards is related by `F`. -/
structure Settled (c : Core) (A F : Heap → Heap → Prop) {α : Type} (m : M α) : Prop where
  answer : ∀ h h', h.core = c → A h h' → (m h').1 = (m h).1
  state : ∀ h, h.core = c → F h (m h).2

section
variable {c : Core} {A F : Heap → Heap → Prop} {α β : Type}

namespace Settled

theorem pure (hF : AlikeNow F) (a : α) : Settled c A F (Pure.pure a : M α) := ⟨fun _ _ _ _ => rfl, fun h _ => hF.refl h⟩
theorem raise (hF : AlikeNow F) (e : Err) : Settled c A F (Py.raise e : M α) := ⟨fun _ _ _ _ => rfl, fun h _ => hF.refl h⟩

theorem bind (hA : AlikeNow A) (hF : AlikeNow F) (hFA : ∀ h h', F h h' → A h h') {m : M α} {f : α → M β} (hm : Settled c A F m)
    (hf : ∀ a, Settled c A F (f a)) : Settled c A F (m >>= f) := by
  constructor
  · intro h h' hc ha
    have e := hm.answer h h' hc ha
    have s := hm.state h hc
    have s' := hm.state h' (by rw [hA.core h h' ha, hc])
    rw [Py.bind_run, Py.bind_run]
    cases em : m h with
    | mk x g =>
      cases em' : m h' with
      | mk x' g' =>
        rw [em, em'] at e
        rw [em] at s
        rw [em'] at s'
        simp only at e s s'
        subst e
        cases x' with
        | error _ => rfl
        | ok a =>
          refine (hf a).answer g g' (by rw [hF.core h g s, hc]) ?_
          exact hA.trans _ _ _ (hA.symm _ _ (hFA _ _ s)) (hA.trans _ _ _ ha (hFA _ _ s'))
  · intro h hc
    have s := hm.state h hc
    rw [Py.bind_run]
    cases em : m h with
    | mk x g =>
      rw [em] at s
      cases x with
      | error _ => exact s
      | ok a => exact hF.trans _ _ _ s ((hf a).state g (by rw [hF.core h g s, hc]))

/-- Reading attributes. -/
theorem read (hA : AlikeNow A) {f : Heap → M β} (hf : ∀ h, h.core = c → Settled c A F (f h))
    (he : ∀ h h', h'.core = h.core → f h' = f h) : Settled c A F (Py.read >>= f) := by
  constructor
  · intro h h' hc ha
    rw [Py.read_bind, Py.read_bind, he h h' (hA.core h h' ha)]
    exact (hf h hc).answer h h' hc ha
  · intro h hc
    rw [Py.read_bind]
    exact (hf h hc).state h hc

theorem assert (hF : AlikeNow F) (b : Bool) : Settled c A F (Py.assert b : M Unit) := by
  cases b
  · exact raise hF _
  · exact pure hF _

theorem unwrap (hF : AlikeNow F) (e : Err) (o : Option α) : Settled c A F (Py.unwrap e o : M α) := by
  cases o
  · exact raise hF _
  · exact pure hF _

theorem index (hF : AlikeNow F) (l : List α) (i : Nat) : Settled c A F (Py.index l i : M α) := by
  unfold Py.index
  cases l[i]? with
  | none => exact raise hF _
  | some a => exact pure hF _

theorem ite {p : Prop} [Decidable p] {a b : M α} (ha : Settled c A F a) (hb : Settled c A F b) : Settled c A F (if p then a else b) := by
  split_ifs
  · exact ha
  · exact hb

theorem mapEach (hA : AlikeNow A) (hF : AlikeNow F) (hFA : ∀ h h', F h h' → A h h') {f : α → M β} {l : List α}
    (hf : ∀ a ∈ l, Settled c A F (f a)) : Settled c A F (Py.mapEach l f) := by
  induction l with
  | nil => exact pure hF _
  | cons x l ih =>
    show Settled c A F (f x >>= fun y => Py.mapEach l f >>= fun ys => Pure.pure (y :: ys))
    exact bind hA hF hFA (hf x (by simp)) fun _ => bind hA hF hFA (ih fun a ha => hf a (by simp [ha])) fun _ => pure hF _

/-- The relations may be replaced by a finer one for answers and a coarser one for states. -/
theorem lift {A' F' : Heap → Heap → Prop} (hA : ∀ h h', A' h h' → A h h') (hF : ∀ h h', h.core = c → F h h' → F' h h') {m : M α}
    (hm : Settled c A F m) : Settled c A' F' m :=
  ⟨fun h h' hc ha => hm.answer h h' hc (hA h h' ha), fun h hc => hF h _ hc (hm.state h hc)⟩

end Settled
end

/-! ## Times and loads -/

/-- Times, loads and all verdicts memoised are alike. -/
structure SameVerdicts (E : Env) (L : Nat → Prop) (h h' : Heap) : Prop extends AlikeTimes E L h h' where
  sfeas : h'.sfeas = h.sfeas
  pfeas : h'.pfeas = h.pfeas
  rfeas : h'.rfeas = h.rfeas

theorem alikeTimes (E : Env) (L : Nat → Prop) : AlikeNow (AlikeTimes E L) :=
  ⟨AlikeTimes.refl, fun _ _ a => a.symm, fun _ _ _ a b => a.trans b, fun _ _ a => a.core⟩

theorem sameVerdicts (E : Env) (L : Nat → Prop) : AlikeNow (SameVerdicts E L) :=
  ⟨fun h => ⟨AlikeTimes.refl h, rfl, rfl, rfl⟩, fun _ _ a => ⟨a.toAlikeTimes.symm, a.sfeas.symm, a.pfeas.symm, a.rfeas.symm⟩,
    fun _ _ _ a b => ⟨a.toAlikeTimes.trans b.toAlikeTimes, b.sfeas.trans a.sfeas, b.pfeas.trans a.pfeas, b.rfeas.trans a.rfeas⟩,
    fun _ _ a => a.core⟩

/-- The stops `L` have chains of predecessors, not longer than there are stops. -/
def Grounded (c : Core) (L : Nat → Prop) : Prop := ∀ s, L s → ∃ anc, Anc c s anc ∧ anc.length ≤ c.nStop ∧ ∀ x ∈ anc, L x

/-- In every state with the objects `c`, `m` returns `v`, and only times and loads are memoised. -/
def Tells (E : Env) (c : Core) (L : Nat → Prop) {α : Type} (m : M α) (v : Heap → α) : Prop :=
  ∀ h, h.core = c → ∃ h', m h = (.ok (v h), h') ∧ SameVerdicts E L h h'

theorem Tells.steady {c : Core} {L : Nat → Prop} {α : Type} {m : M α} {v : Heap → α} (hm : Tells E c L m v)
    (hv : ∀ h h', h.core = c → AlikeTimes E L h h' → v h' = v h) : Settled c (AlikeTimes E L) (SameVerdicts E L) m := by
  constructor
  · intro h h' hc ha
    obtain ⟨g, e, _⟩ := hm h hc
    obtain ⟨g', e', _⟩ := hm h' (by rw [ha.core, hc])
    rw [e, e', hv h h' hc ha]
  · intro h hc
    obtain ⟨g, e, s⟩ := hm h hc
    rw [e]; exact s

section
variable {c : Core} {L : Nat → Prop}

theorem arrivalWith_tells {dep : Nat → M ℚ} {s : Nat} {anc : List Nat} (ha : Anc c s anc) (hs : L s)
    (hd : ∀ p l, anc = p :: l → Tells E c L (dep p) fun h => (shown E h p l).dep) (hL : ∀ x ∈ anc, L x) :
    Tells E c L (arrivalWith E dep s) fun h => (shown E h s anc).arr := by
  intro h hc
  subst hc
  unfold arrivalWith
  rw [Py.read_bind]
  cases hm : h.arr s with
  | some v =>
    refine ⟨h, ?_, (sameVerdicts E L).refl h⟩
    have : (shown E h s anc).arr = v := by cases anc <;> simp [shown, shownStep, hm]
    show (Except.ok v, h) = (Except.ok (shown E h s anc).arr, h)
    rw [this]
  | none =>
    have hp : ∀ h1, SameVerdicts E L h h1 → ∃ h2, prevDepartureWith E dep s h1 = (.ok ((shown E h s anc).arr -
        E.metric (stopPrevPosition E h.core s) (h.core.stop s).position), h2) ∧ SameVerdicts E L h h2 := by
      intro h1 k
      unfold prevDepartureWith
      rw [Py.read_bind, k.core]
      cases anc with
      | nil =>
        have h0 : (h.core.stop s).previous = none := ha
        refine ⟨h1, ?_, k⟩
        simp [h0, shown, shownStep, hm, stopPrevPosition]
      | cons p l =>
        obtain ⟨h0, ha'⟩ := ha
        obtain ⟨h2, e2, k2⟩ := hd p l rfl h1 k.core
        refine ⟨h2, ?_, (sameVerdicts E L).trans _ _ _ k k2⟩
        rw [h0]
        show dep p h1 = _
        rw [e2]
        have := k.times p l (hL p (by simp)) ha'
        simp [shown, shownStep, hm, stopPrevPosition, h0, this]
    obtain ⟨h1, e1, k1⟩ := hp h ((sameVerdicts E L).refl h)
    obtain ⟨h2, e2, k2⟩ := hp h1 k1
    have e3 : transitTimeWith E dep s h1 = (.ok (E.metric (stopPrevPosition E h.core s) (h.core.stop s).position), h2) := by
      unfold transitTimeWith
      rw [Py.read_bind, Py.bind_ok e2, k1.core]
      rfl
    simp only []
    rw [Py.bind_ok e1, Py.bind_ok e3, Py.modify_bind, sub_add_cancel]
    refine ⟨_, rfl, (sameVerdicts E L).trans _ _ _ k2 ⟨⟨rfl, ?_, ?_, fun x hx =>
      ⟨Function.update_of_ne (by rintro rfl; exact hx hs) _ _, rfl, rfl⟩⟩, rfl, rfl, rfl⟩⟩
    · intro x l hx hl
      rw [← k2.times s anc hs ha]
      exact shown_memo_arr (by rw [k2.core]; exact ha) l x hl
    · intro x l hx hl
      exact shownLoad_congr (h := _) (h' := _) (by rfl) (by rfl) l x

theorem startingWith_tells {dep : Nat → M ℚ} {s : Nat} {anc : List Nat} (ha : Anc c s anc) (hs : L s)
    (hd : Tells E c L (arrivalWith E dep s) fun h => (shown E h s anc).arr) :
    Tells E c L (startingWith E dep s) fun h => (shown E h s anc).start := by
  intro h hc
  subst hc
  unfold startingWith
  rw [Py.read_bind]
  obtain ⟨h1, e1, k1⟩ := hd h rfl
  obtain ⟨h2, e2, k2⟩ := hd h1 k1.core
  cases hst : (h.core.stop s).start with
  | some v =>
    refine ⟨h1, ?_, k1⟩
    simp only []
    rw [Py.bind_ok e1]
    cases anc <;> simp [shown, shownStep, hst]
  | none =>
    refine ⟨h2, ?_, (sameVerdicts E L).trans _ _ _ k1 k2⟩
    simp only []
    rw [Py.bind_ok e1, Py.bind_ok e2]
    have e3 := k1.times s anc hs ha
    simp only [e3]
    cases anc <;> simp [shown, shownStep, hst]

theorem departureF_tells (n : Nat) : ∀ (s : Nat) (anc : List Nat), Anc c s anc → L s → (∀ x ∈ anc, L x) → anc.length < n →
    Tells E c L (departureF E n s) fun h => (shown E h s anc).dep := by
  induction n with
  | zero => intro s anc _ _ _ h; exact absurd h (by simp)
  | succ n ih =>
    intro s anc ha hs hL hn h hc
    subst hc
    unfold departureF
    rw [Py.read_bind]
    cases hm : h.dep s with
    | some v =>
      refine ⟨h, ?_, (sameVerdicts E L).refl h⟩
      have : (shown E h s anc).dep = v := by cases anc <;> simp [shown, shownStep, hm]
      show (Except.ok v, h) = (Except.ok (shown E h s anc).dep, h)
      rw [this]
    | none =>
      have hst := startingWith_tells ha hs (arrivalWith_tells (dep := departureF E n) ha hs (by
        rintro p l rfl
        exact ih p l ha.2 (hL p (by simp)) (fun x hx => hL x (by simp [hx])) (by simpa using hn)) hL)
      obtain ⟨h1, e1, k1⟩ := hst h rfl
      have hv : (shown E h s anc).start + stopLoadTime E h.core s = (shown E h s anc).dep := by
        cases anc <;> simp [shown, shownStep, hm]
      simp only []
      rw [Py.bind_ok e1, Py.modify_bind, hv]
      refine ⟨_, rfl, (sameVerdicts E L).trans _ _ _ k1 ⟨⟨rfl, ?_, ?_, fun x hx =>
      ⟨rfl, Function.update_of_ne (by rintro rfl; exact hx hs) _ _, rfl⟩⟩, rfl, rfl, rfl⟩⟩
      · intro x l hx hl
        rw [← k1.times s anc hs ha]
        exact shown_memo_dep (by rw [k1.core]; exact ha) l x hl
      · intro x l hx hl
        exact shownLoad_congr (h := _) (h' := _) (by rfl) (by rfl) l x

end

section
variable {c : Core} {L : Nat → Prop} {s : Nat} {anc : List Nat}

theorem tells_fuel {α : Type} {m : Nat → M α} {v : Heap → α} (hm : Tells E c L (m (c.nStop + 1)) v) :
    Tells E c L (fun h => m h.fuel h) v := by
  intro h hc
  obtain ⟨h', e, k⟩ := hm h hc
  exact ⟨h', by simp only [Heap.fuel, hc]; exact e, k⟩

variable (ha : Anc c s anc) (hs : L s) (hL : ∀ x ∈ anc, L x) (hn : anc.length ≤ c.nStop)
include ha hs hL hn

theorem departure_tells : Tells E c L (departure E s) fun h => (shown E h s anc).dep :=
  tells_fuel (m := fun n => departureF E n s) (departureF_tells _ s anc ha hs hL (by omega))

theorem arrival_tells : Tells E c L (arrival E s) fun h => (shown E h s anc).arr :=
  tells_fuel (m := fun n => arrivalWith E (departureF E n) s) (arrivalWith_tells ha hs (by
    rintro p l rfl
    exact departureF_tells _ p l ha.2 (hL p (by simp)) (fun x hx => hL x (by simp [hx])) (by simp at hn; omega)) hL)

theorem starting_tells : Tells E c L (starting E s) fun h => (shown E h s anc).start :=
  tells_fuel (m := fun n => startingWith E (departureF E n) s) (startingWith_tells ha hs (arrivalWith_tells ha hs (by
    rintro p l rfl
    exact departureF_tells _ p l ha.2 (hL p (by simp)) (fun x hx => hL x (by simp [hx])) (by simp at hn; omega)) hL))

end

/-! ## Loads -/

section
variable {c : Core} {L : Nat → Prop}

theorem capacityF_run (n : Nat) : ∀ (s : Nat) (anc : List Nat), Anc c s anc → L s → (∀ x ∈ anc, L x) → anc.length < n →
    ∀ h, h.core = c → ∃ h', capacityF E n s h = (shownLoad E h s anc, h') ∧ SameVerdicts E L h h' := by
  induction n with
  | zero => intro s anc _ _ _ h; exact absurd h (by simp)
  | succ n ih =>
    intro s anc ha hs hL hn h hc
    subst hc
    unfold capacityF
    rw [Py.read_bind]
    cases hm : h.cap s with
    | some v =>
      refine ⟨h, ?_, (sameVerdicts E L).refl h⟩
      have : shownLoad E h s anc = .ok v := by cases anc <;> simp [shownLoad, loadStep, hm]
      show (Except.ok v, h) = (shownLoad E h s anc, h)
      rw [this]
    | none =>
      have hp : ∃ h1 x, prevCapacityWith (capacityF E n) s h = (x, h1) ∧ SameVerdicts E L h h1 ∧
          shownLoad E h s anc = loadStep E h s x := by
        unfold prevCapacityWith
        rw [Py.read_bind]
        cases anc with
        | nil =>
          have h0 : (h.core.stop s).previous = none := ha
          rw [h0]
          exact ⟨h, .ok 0, rfl, (sameVerdicts E L).refl h, rfl⟩
        | cons p l =>
          obtain ⟨h0, ha'⟩ := ha
          obtain ⟨h1, e1, k1⟩ := ih p l ha' (hL p (by simp)) (fun x hx => hL x (by simp [hx])) (by simpa using hn) h rfl
          rw [h0]
          exact ⟨h1, _, e1, k1, rfl⟩
      obtain ⟨h1, x, e1, k1, ex⟩ := hp
      simp only []
      rw [Py.bind_run, e1]
      cases x with
      | error e =>
        refine ⟨h1, ?_, k1⟩
        rw [ex]; simp [loadStep, hm]
      | ok q =>
        by_cases hq : 0 ≤ q + sumCapacity E h.core (h.core.stop s).pickups - sumCapacity E h.core (h.core.stop s).deliveries
        · have ev : shownLoad E h s anc =
              .ok (q + sumCapacity E h.core (h.core.stop s).pickups - sumCapacity E h.core (h.core.stop s).deliveries) := by
            rw [ex]; simp only [loadStep, hm]; rw [if_pos hq]
          refine ⟨{ h1 with cap := Function.update h1.cap s (some (q + sumCapacity E h.core (h.core.stop s).pickups -
            sumCapacity E h.core (h.core.stop s).deliveries)) }, ?_, (sameVerdicts E L).trans _ _ _ k1 ⟨⟨rfl, ?_, ?_, fun x hx =>
      ⟨rfl, rfl, Function.update_of_ne (by rintro rfl; exact hx hs) _ _⟩⟩, rfl, rfl, rfl⟩⟩
          · rw [ev]
            simp only [decide_eq_true hq]
            rfl
          · intro x l hx hl
            exact shown_congr (h := _) (h' := _) (by rfl) (by rfl) (by rfl) l x
          · intro x l hx hl
            exact shownLoad_memo (by rw [k1.core]; exact ha) ((k1.load s anc hs ha).trans ev) l x hl
        · refine ⟨h1, ?_, k1⟩
          rw [ex]
          simp only [loadStep, hm, decide_eq_false hq]
          rw [if_neg hq]
          rfl

end

/-! ## The questions about times and loads -/

namespace Settled
variable {c : Core} {L : Nat → Prop}

section
variable {α β : Type}

theorem bind0 {m : M α} {f : α → M β} (hm : Settled c (AlikeTimes E L) (SameVerdicts E L) m)
    (hf : ∀ a, Settled c (AlikeTimes E L) (SameVerdicts E L) (f a)) : Settled c (AlikeTimes E L) (SameVerdicts E L) (m >>= f) :=
  bind (alikeTimes E L) (sameVerdicts E L) (fun _ _ a => a.toAlikeTimes) hm hf

end

variable (hc : Grounded c L) {s : Nat} (hs : L s)
include hc hs

theorem departure : Settled c (AlikeTimes E L) (SameVerdicts E L) (departure E s) := by
  obtain ⟨anc, ha, hn, hL⟩ := hc s hs
  exact (departure_tells ha hs hL hn).steady fun h h' e a => by
    simp only [a.times s anc hs (by rw [e]; exact ha)]

theorem arrival : Settled c (AlikeTimes E L) (SameVerdicts E L) (arrival E s) := by
  obtain ⟨anc, ha, hn, hL⟩ := hc s hs
  exact (arrival_tells ha hs hL hn).steady fun h h' e a => by
    simp only [a.times s anc hs (by rw [e]; exact ha)]

theorem starting : Settled c (AlikeTimes E L) (SameVerdicts E L) (starting E s) := by
  obtain ⟨anc, ha, hn, hL⟩ := hc s hs
  exact (starting_tells ha hs hL hn).steady fun h h' e a => by
    simp only [a.times s anc hs (by rw [e]; exact ha)]

theorem capacity : Settled c (AlikeTimes E L) (SameVerdicts E L) (capacity E s) := by
  obtain ⟨anc, ha, hn, hL⟩ := hc s hs
  have run : ∀ h, h.core = c → ∃ h', Jinete.capacity E s h = (shownLoad E h s anc, h') ∧ SameVerdicts E L h h' := by
    intro h e
    obtain ⟨h', e', k⟩ := capacityF_run (E := E) (c.nStop + 1) s anc ha hs hL (by omega) h e
    exact ⟨h', by simp only [Jinete.capacity, Heap.fuel, e]; exact e', k⟩
  constructor
  · intro h h' e a
    obtain ⟨g, eg, _⟩ := run h e
    obtain ⟨g', eg', _⟩ := run h' (by rw [a.core, e])
    rw [eg, eg']
    exact a.load s anc hs (by rw [e]; exact ha)
  · intro h e
    obtain ⟨g, eg, k⟩ := run h e
    rw [eg]; exact k

theorem transitTime : Settled c (AlikeTimes E L) (SameVerdicts E L) (transitTime E s) := by
  obtain ⟨anc, ha, hn, hL⟩ := hc s hs
  have run : ∀ h, h.core = c → ∃ h', Jinete.transitTime E s h =
      (.ok (E.metric (stopPrevPosition E c s) (c.stop s).position), h') ∧ SameVerdicts E L h h' := by
    intro h e
    subst e
    unfold Jinete.transitTime transitTimeWith prevDepartureWith
    rw [Py.read_bind, Py.bind_run, Py.read_bind]
    cases anc with
    | nil =>
      have h0 : (h.core.stop s).previous = none := ha
      rw [h0]
      exact ⟨h, rfl, (sameVerdicts E L).refl h⟩
    | cons p l =>
      obtain ⟨h0, ha'⟩ := ha
      obtain ⟨h1, e1, k1⟩ := departureF_tells (E := E) (L := L) h.fuel p l ha' (hL p (by simp)) (fun x hx => hL x (by simp [hx]))
        (by simp at hn; unfold Heap.fuel; omega) h rfl
      rw [h0]
      simp only []
      rw [e1]
      exact ⟨h1, rfl, k1⟩
  exact Tells.steady (v := fun _ => E.metric (stopPrevPosition E c s) (c.stop s).position) run fun _ _ _ _ => rfl

theorem waitingTime : Settled c (AlikeTimes E L) (SameVerdicts E L) (waitingTime E s) :=
  bind0 (starting hc hs) fun _ => bind0 (arrival hc hs) fun _ => bind0 (assert (sameVerdicts E L) _) fun _ => pure (sameVerdicts E L) _

theorem stopBody : Settled c (AlikeTimes E L) (SameVerdicts E L) (stopFeasible.body E s) := by
  unfold stopFeasible.body
  refine read (alikeTimes E L) (fun h _ => ?_) fun h h' e => by simp only [e]
  exact bind0 (starting hc hs) fun _ => ite (pure (sameVerdicts E L) _) (bind0 (starting hc hs) fun _ => ite (pure (sameVerdicts E L) _)
    (bind0 (capacity hc hs) fun _ => ite (pure (sameVerdicts E L) _) (pure (sameVerdicts E L) _)))

end Settled

/-! ## Memoised verdicts -/

/-- A property whose value is stored: read it with `get`, or run `body` and store the value with `put`. -/
def memoised (get : Heap → Nat → Option Bool) (put : Nat → Bool → Heap → Heap) (body : Nat → M Bool) (x : Nat) : M Bool := do
  let h ← Py.read
  match get h x with
  | some b => pure b
  | none =>
    let b ← body x
    Py.modify (put x b)
    pure b

/-- States related by `A` in which the property has the same value at each `x` in `D`. -/
structure AndSays (A : Heap → Heap → Prop) (m : Nat → M Bool) (D : Nat → Prop) (h h' : Heap) : Prop where
  alike : A h h'
  verdict : ∀ x, D x → (m x h').1 = (m x h).1

theorem AndSays.isAlike {A : Heap → Heap → Prop} (hA : AlikeNow A) (m : Nat → M Bool) (D : Nat → Prop) : AlikeNow (AndSays A m D) :=
  ⟨fun h => ⟨hA.refl h, fun _ _ => rfl⟩, fun _ _ a => ⟨hA.symm _ _ a.alike, fun x hx => (a.verdict x hx).symm⟩,
    fun _ _ _ a b => ⟨hA.trans _ _ _ a.alike b.alike, fun x hx => (b.verdict x hx).trans (a.verdict x hx)⟩, fun _ _ a => hA.core _ _ a.alike⟩

section
variable {c : Core} {A F : Heap → Heap → Prop} {get : Heap → Nat → Option Bool} {put : Nat → Bool → Heap → Heap} {body : Nat → M Bool}
  {D : Nat → Prop}

theorem memoised_some {x : Nat} {h : Heap} {b : Bool} (e : get h x = some b) : memoised get put body x h = (.ok b, h) := by
  unfold memoised
  rw [Py.read_bind, e]
  rfl

theorem memoised_none {x : Nat} {h : Heap} (e : get h x = none) :
    memoised get put body x h = match body x h with
      | (.ok b, h') => (.ok b, put x b h')
      | (.error err, h') => (.error err, h') := by
  unfold memoised
  rw [Py.read_bind, e]
  simp only []
  rw [Py.bind_run]
  cases body x h with
  | mk y g => cases y <;> rfl

/-- With the same stored values, the property has the same value. -/
theorem memoised_same (hb : ∀ x, D x → ∀ h h', h.core = c → A h h' → (body x h').1 = (body x h).1) {h h' : Heap} (hc : h.core = c)
    (ha : A h h') (hg : get h' = get h) {x : Nat} (hx : D x) :
    (memoised get put body x h').1 = (memoised get put body x h).1 := by
  cases e : get h x with
  | some b => rw [memoised_some e, memoised_some (by rw [hg]; exact e)]
  | none =>
    rw [memoised_none e, memoised_none (by rw [hg]; exact e)]
    have := hb x hx h h' hc ha
    cases e1 : body x h with
    | mk y g =>
      cases e2 : body x h' with
      | mk y' g' =>
        rw [e1, e2] at this
        simp only at this
        subst this
        cases y' <;> rfl

/-- Such a property has the same value again, and storing it changes no value of the property elsewhere. -/
theorem Settled.memoised (hA : AlikeNow A) (hF : AlikeNow F) (hFA : ∀ h h', F h h' → A h h') (hFg : ∀ h h', F h h' → get h' = get h)
    (hput : ∀ x b h, h.core = c → A h (put x b h)) (hget : ∀ x b h, get (put x b h) = Function.update (get h) x (some b))
    {K : Heap → Heap → Prop} (hK : ∀ h h', F h h' → K h h') (hKp : ∀ h x b h', K h h' → K h (put x b h'))
    (hb : ∀ x, D x → Settled c A F (body x)) {x : Nat} (hx : D x) :
    Settled c (AndSays A (Jinete.memoised get put body) D) (fun h h' => AndSays A (Jinete.memoised get put body) D h h' ∧ K h h')
      (Jinete.memoised get put body x) := by
  refine ⟨fun h h' _ a => a.verdict x hx, fun h hc => ?_⟩
  have hb' : ∀ x, D x → ∀ h h', h.core = c → A h h' → (body x h').1 = (body x h).1 := fun x hx => (hb x hx).answer
  cases e : get h x with
  | some b =>
    rw [memoised_some e]
    exact ⟨⟨hA.refl h, fun _ _ => rfl⟩, hK _ _ (hF.refl h)⟩
  | none =>
    have s := (hb x hx).state h hc
    have e0 := memoised_none (put := put) (body := body) e
    rw [e0]
    cases e1 : body x h with
    | mk y g =>
      rw [e1] at s e0
      have a := hFA _ _ s
      have hgc : g.core = c := by rw [hF.core _ _ s, hc]
      cases y with
      | error err => exact ⟨⟨a, fun z hz => memoised_same hb' hc a (hFg _ _ s) hz⟩, hK _ _ s⟩
      | ok b =>
        have a2 : A h (put x b g) := hA.trans _ _ _ a (hput x b g hgc)
        refine ⟨⟨a2, fun z hz => ?_⟩, hKp _ _ _ _ (hK _ _ s)⟩
        by_cases hzx : z = x
        · subst hzx
          rw [memoised_some (b := b) (by rw [hget]; simp), e0]
        · have eg : get (put x b g) z = get h z := by rw [hget, Function.update_of_ne hzx, hFg _ _ s]
          cases ez : get h z with
          | some b' => rw [memoised_some ez, memoised_some (eg.trans ez)]
          | none =>
            rw [memoised_none ez, memoised_none (eg.trans ez)]
            have := hb' z hz h (put x b g) hc a2
            cases e3 : body z h with
            | mk w k =>
              cases e4 : body z (put x b g) with
              | mk w' k' =>
                rw [e3, e4] at this
                simp only at this
                subst this
                cases w' <;> rfl

end

/-! ## Verdicts of stops, planned trips and routes -/

/-- The stops of a planned trip are among `L`. -/
def TripIn (c : Core) (L : Nat → Prop) (p : Nat) : Prop := (∀ u ∈ (c.pt p).pickup, L u) ∧ ∀ d ∈ (c.pt p).delivery, L d

/-- The stops of a route, and those of the planned trips picked up there, are among `L`. -/
def RouteIn (c : Core) (L : Nat → Prop) (r : Nat) : Prop :=
  ∀ s ∈ (c.route r).stops, L s ∧ ∀ p ∈ (c.stop s).pickups, TripIn c L p

/-- The same times, loads and verdicts of stops. -/
abbrev Alike1 (E : Env) (L : Nat → Prop) : Heap → Heap → Prop := AndSays (AlikeTimes E L) (stopFeasible E) L
/-- Also the same verdicts of planned trips. -/
abbrev Alike2 (E : Env) (c : Core) (L : Nat → Prop) : Heap → Heap → Prop := AndSays (Alike1 E L) (ptFeasible E) (TripIn c L)
/-- Also the same verdicts of routes. -/
abbrev Alike3 (E : Env) (c : Core) (L : Nat → Prop) : Heap → Heap → Prop := AndSays (Alike2 E c L) (routeFeasible E) (RouteIn c L)

/-- Memoised verdicts of planned trips and of routes are the same, too. -/
def Keeps1 (E : Env) (L : Nat → Prop) (h h' : Heap) : Prop := Alike1 E L h h' ∧ (h'.pfeas = h.pfeas ∧ h'.rfeas = h.rfeas)
/-- Memoised verdicts of routes are the same, too. -/
def Keeps2 (E : Env) (c : Core) (L : Nat → Prop) (h h' : Heap) : Prop := Alike2 E c L h h' ∧ h'.rfeas = h.rfeas

section
variable {c : Core} {L : Nat → Prop}

theorem alike1 : AlikeNow (Alike1 E L) := AndSays.isAlike (alikeTimes E L) _ _
theorem alike2 : AlikeNow (Alike2 E c L) := AndSays.isAlike alike1 _ _
theorem alike3 : AlikeNow (Alike3 E c L) := AndSays.isAlike alike2 _ _

theorem keeps1 : AlikeNow (Keeps1 E L) :=
  ⟨fun h => ⟨alike1.refl h, rfl, rfl⟩, fun _ _ a => ⟨alike1.symm _ _ a.1, a.2.1.symm, a.2.2.symm⟩,
    fun _ _ _ a b => ⟨alike1.trans _ _ _ a.1 b.1, b.2.1.trans a.2.1, b.2.2.trans a.2.2⟩, fun _ _ a => alike1.core _ _ a.1⟩
theorem keeps2 : AlikeNow (Keeps2 E c L) :=
  ⟨fun h => ⟨alike2.refl h, rfl⟩, fun _ _ a => ⟨alike2.symm _ _ a.1, a.2.symm⟩,
    fun _ _ _ a b => ⟨alike2.trans _ _ _ a.1 b.1, b.2.trans a.2⟩, fun _ _ a => alike2.core _ _ a.1⟩

/-- Store the verdict of a stop. -/
def putStop (s : Nat) (b : Bool) (h : Heap) : Heap := { h with sfeas := Function.update h.sfeas s (some b) }
/-- Store the verdict of a planned trip. -/
def putTrip (s : Nat) (b : Bool) (h : Heap) : Heap := { h with pfeas := Function.update h.pfeas s (some b) }
/-- Store the verdict of a route. -/
def putRoute (s : Nat) (b : Bool) (h : Heap) : Heap := { h with rfeas := Function.update h.rfeas s (some b) }

theorem stopFeasible_memoised : stopFeasible E = memoised Heap.sfeas putStop (stopFeasible.body E) := rfl
theorem ptFeasible_memoised : ptFeasible E = memoised Heap.pfeas putTrip (ptFeasible.body E) := rfl
theorem routeFeasible_memoised : routeFeasible E = memoised Heap.rfeas putRoute (routeFeasible.body E) := rfl

variable (hc : Grounded c L)
include hc

theorem alike1_of {h h' : Heap} (e : h.core = c) (a : AlikeTimes E L h h') (hs : h'.sfeas = h.sfeas) : Alike1 E L h h' :=
  ⟨a, fun _ hx => memoised_same (get := Heap.sfeas) (put := putStop) (body := stopFeasible.body E) (D := L) (fun _ hx => (Settled.stopBody hc hx).answer) e a hs hx⟩

theorem Settled.stopFeasible {s : Nat} (hs : L s) : Settled c (Alike1 E L) (Keeps1 E L) (stopFeasible E s) :=
  Settled.memoised (get := Heap.sfeas) (put := putStop) (body := stopFeasible.body E) (D := L) (alikeTimes E L) (sameVerdicts E L) (fun _ _ a => a.toAlikeTimes) (fun _ _ a => a.sfeas)
    (fun _ _ _ _ => ⟨rfl, fun s anc _ _ => shown_congr (by rfl) (by rfl) (by rfl) anc s, fun s anc _ _ => shownLoad_congr (by rfl) (by rfl) anc s,
      fun _ _ => ⟨rfl, rfl, rfl⟩⟩)
    (fun _ _ _ => rfl) (K := fun h h' => h'.pfeas = h.pfeas ∧ h'.rfeas = h.rfeas) (fun _ _ a => ⟨a.pfeas, a.rfeas⟩)
    (fun _ _ _ _ a => a) (fun _ hx => Settled.stopBody hc hx) hs

/-- Questions about times and loads, among questions about stops. -/
theorem Settled.up1 {α : Type} {m : M α} (hm : Settled c (AlikeTimes E L) (SameVerdicts E L) m) : Settled c (Alike1 E L) (Keeps1 E L) m :=
  hm.lift (fun _ _ a => a.alike) fun _ _ e a => ⟨alike1_of hc e a.toAlikeTimes a.sfeas, a.pfeas, a.rfeas⟩

end

namespace Settled
variable {c : Core} {L : Nat → Prop}

section
variable {α β : Type}
theorem bind1 {m : M α} {f : α → M β} (hm : Settled c (Alike1 E L) (Keeps1 E L) m) (hf : ∀ a, Settled c (Alike1 E L) (Keeps1 E L) (f a)) :
    Settled c (Alike1 E L) (Keeps1 E L) (m >>= f) := bind alike1 keeps1 (fun _ _ a => a.1) hm hf

theorem bind2 {m : M α} {f : α → M β} (hm : Settled c (Alike2 E c L) (Keeps2 E c L) m) (hf : ∀ a, Settled c (Alike2 E c L) (Keeps2 E c L) (f a)) :
    Settled c (Alike2 E c L) (Keeps2 E c L) (m >>= f) := bind alike2 keeps2 (fun _ _ a => a.1) hm hf

theorem bind3 {m : M α} {f : α → M β} (hm : Settled c (Alike3 E c L) (Alike3 E c L) m) (hf : ∀ a, Settled c (Alike3 E c L) (Alike3 E c L) (f a)) :
    Settled c (Alike3 E c L) (Alike3 E c L) (m >>= f) := bind alike3 alike3 (fun _ _ a => a) hm hf

/-- Bind, knowing which answers are possible. -/
theorem bindOn {A F : Heap → Heap → Prop} (hA : AlikeNow A) (hF : AlikeNow F) (hFA : ∀ h h', F h h' → A h h') {P : α → Prop} {m : M α} {f : α → M β}
    (hm : Settled c A F m) (hP : ∀ h a, h.core = c → (m h).1 = .ok a → P a) (hf : ∀ a, P a → Settled c A F (f a)) : Settled c A F (m >>= f) := by
  constructor
  · intro h h' hc ha
    have e := hm.answer h h' hc ha
    have s := hm.state h hc
    have s' := hm.state h' (by rw [hA.core h h' ha, hc])
    have q := hP h
    rw [Py.bind_run, Py.bind_run]
    cases em : m h with
    | mk x g =>
      cases em' : m h' with
      | mk x' g' =>
        rw [em, em'] at e
        rw [em] at s q
        rw [em'] at s'
        simp only at e s s' q
        subst e
        cases x' with
        | error _ => rfl
        | ok a =>
          refine (hf a (q a hc rfl)).answer g g' (by rw [hF.core h g s, hc]) ?_
          exact hA.trans _ _ _ (hA.symm _ _ (hFA _ _ s)) (hA.trans _ _ _ ha (hFA _ _ s'))
  · intro h hc
    have s := hm.state h hc
    have q := hP h
    rw [Py.bind_run]
    cases em : m h with
    | mk x g =>
      rw [em] at s q
      cases x with
      | error _ => exact s
      | ok a => exact hF.trans _ _ _ s ((hf a (q a hc rfl)).state g (by rw [hF.core h g s, hc]))

/-- Attributes. -/
theorem attr {A F : Heap → Heap → Prop} (hA : AlikeNow A) (hF : AlikeNow F) {m : M α} (v : Core → Except Err α)
    (hm : ∀ h, m h = (v h.core, h)) : Settled c A F m :=
  ⟨fun h h' _ a => by rw [hm, hm, hA.core h h' a], fun h _ => by rw [hm]; exact hF.refl h⟩

end

theorem ptPickup_run (p : Nat) (h : Heap) : Jinete.ptPickup p h = (match (h.core.pt p).pickup with
    | none => .error .attributeError
    | some u => .ok u, h) := by
  unfold Jinete.ptPickup
  rw [Py.read_bind]
  cases (h.core.pt p).pickup <;> rfl

theorem ptDelivery_run (p : Nat) (h : Heap) : Jinete.ptDelivery p h = (match (h.core.pt p).delivery with
    | none => .error .attributeError
    | some u => .ok u, h) := by
  unfold Jinete.ptDelivery
  rw [Py.read_bind]
  cases (h.core.pt p).delivery <;> rfl

theorem ptPickup_ok {p : Nat} {h : Heap} {u : Nat} (e : (Jinete.ptPickup p h).1 = .ok u) : u ∈ (h.core.pt p).pickup := by
  rw [ptPickup_run] at e
  cases e1 : (h.core.pt p).pickup with
  | none => rw [e1] at e; cases e
  | some x => rw [e1] at e; cases e; rfl

theorem ptDelivery_ok {p : Nat} {h : Heap} {u : Nat} (e : (Jinete.ptDelivery p h).1 = .ok u) : u ∈ (h.core.pt p).delivery := by
  rw [ptDelivery_run] at e
  cases e1 : (h.core.pt p).delivery with
  | none => rw [e1] at e; cases e
  | some x => rw [e1] at e; cases e; rfl

section
variable {A F : Heap → Heap → Prop} (hA : AlikeNow A) (hF : AlikeNow F)
include hA hF

theorem ptPickup (p : Nat) : Settled c A F (ptPickup p) := attr hA hF (fun c => match (c.pt p).pickup with
    | none => .error .attributeError
    | some u => .ok u) (ptPickup_run p)
theorem ptDelivery (p : Nat) : Settled c A F (ptDelivery p) := attr hA hF (fun c => match (c.pt p).delivery with
    | none => .error .attributeError
    | some u => .ok u) (ptDelivery_run p)

omit hA hF in
theorem allPreviousF (n : Nat) : ∀ s, ∃ v : Core → Except Err (List Nat), ∀ h, Jinete.allPreviousF n s h = (v h.core, h) := by
  induction n with
  | zero => exact fun s => ⟨fun _ => .error .recursionError, fun _ => rfl⟩
  | succ n ih =>
    intro s
    refine ⟨fun c => match (c.stop s).previous with
      | none => .ok []
      | some p => match (ih p).choose c with
        | .ok l => .ok (p :: l)
        | .error e => .error e, fun h => ?_⟩
    unfold Jinete.allPreviousF
    rw [Py.read_bind]
    beta_reduce
    cases (h.core.stop s).previous with
    | none => rfl
    | some p =>
      simp only []
      rw [Py.bind_run, (ih p).choose_spec h]
      cases (ih p).choose h.core <;> rfl

theorem allPrevious (s : Nat) : Settled c A F (allPrevious s) := by
  refine attr hA hF (fun c => (allPreviousF (c.nStop + 1) s).choose c) fun h => ?_
  exact (allPreviousF (h.core.nStop + 1) s).choose_spec h

end

section
variable (hc : Grounded c L) {p : Nat} (hp : TripIn c L p)
include hc hp

theorem pickupTime : Settled c (AlikeTimes E L) (SameVerdicts E L) (pickupTime E p) :=
  bindOn (alikeTimes E L) (sameVerdicts E L) (fun _ _ a => a.toAlikeTimes) (ptPickup (alikeTimes E L) (sameVerdicts E L) p)
    (P := L) (fun _ _ e ea => hp.1 _ (by rw [← e]; exact ptPickup_ok ea)) fun _ hu => departure hc hu

theorem deliveryTime : Settled c (AlikeTimes E L) (SameVerdicts E L) (deliveryTime E p) :=
  bindOn (alikeTimes E L) (sameVerdicts E L) (fun _ _ a => a.toAlikeTimes) (ptDelivery (alikeTimes E L) (sameVerdicts E L) p)
    (P := L) (fun _ _ e ea => hp.2 _ (by rw [← e]; exact ptDelivery_ok ea)) fun _ hu => starting hc hu

theorem ptDuration : Settled c (AlikeTimes E L) (SameVerdicts E L) (ptDuration E p) :=
  bind0 (deliveryTime hc hp) fun _ => bind0 (pickupTime hc hp) fun _ => pure (sameVerdicts E L) _

theorem ptBody : Settled c (Alike1 E L) (Keeps1 E L) (ptFeasible.body E p) := by
  have k1 : AlikeNow (Keeps1 E L) := keeps1
  have hu : ∀ (h : Heap) (u : Nat), h.core = c → (Jinete.ptPickup p h).1 = .ok u → L u :=
    fun _ _ e ea => hp.1 _ (by rw [← e]; exact ptPickup_ok ea)
  have hd : ∀ (h : Heap) (u : Nat), h.core = c → (Jinete.ptDelivery p h).1 = .ok u → L u :=
    fun _ _ e ea => hp.2 _ (by rw [← e]; exact ptDelivery_ok ea)
  unfold ptFeasible.body
  refine bind1 (ptDelivery alike1 k1 p) fun d => bind1 (allPrevious alike1 k1 d) fun prev => ?_
  refine read alike1 (fun h _ => ?_) fun h h' e => by simp only [e]
  refine bind1 (assert k1 _) fun _ => bind1 (up1 hc (pickupTime hc hp)) fun _ => bind1 (up1 hc (deliveryTime hc hp)) fun _ =>
    bind1 (assert k1 _) fun _ => bindOn alike1 k1 (fun _ _ a => a.1) (ptPickup alike1 k1 p) hu fun u hu =>
      bind1 (stopFeasible hc hu) fun b => ite (pure k1 _) (bindOn alike1 k1 (fun _ _ a => a.1) (ptDelivery alike1 k1 p) hd fun d hd =>
        bind1 (stopFeasible hc hd) fun b => ite (pure k1 _) (bind1 (up1 hc (ptDuration hc hp)) fun dur => ?_))
  refine read alike1 (fun h _ => ?_) fun h h' e => by simp only [e]
  exact ite (pure k1 _) (pure k1 _)

theorem ptFeasible : Settled c (Alike2 E c L) (Keeps2 E c L) (ptFeasible E p) :=
  Settled.memoised (get := Heap.pfeas) (put := putTrip) (body := ptFeasible.body E) (D := TripIn c L) alike1 keeps1 (fun _ _ a => a.1) (fun _ _ a => a.2.1)
    (fun _ _ _ e => alike1_of hc e ⟨rfl, fun s anc _ _ => shown_congr (by rfl) (by rfl) (by rfl) anc s,
      fun s anc _ _ => shownLoad_congr (by rfl) (by rfl) anc s,
      fun _ _ => ⟨rfl, rfl, rfl⟩⟩ rfl)
    (fun _ _ _ => rfl) (K := fun h h' => h'.rfeas = h.rfeas) (fun _ _ a => a.2.2)
    (fun _ _ _ _ a => a) (fun _ hx => ptBody hc hx) hp

end

section
variable (hc : Grounded c L)
include hc

theorem _root_.Jinete.alike2_of {h h' : Heap} (e : h.core = c) (a : Alike1 E L h h') (hs : h'.pfeas = h.pfeas) : Alike2 E c L h h' :=
  ⟨a, fun _ hx => memoised_same (get := Heap.pfeas) (put := putTrip) (body := ptFeasible.body E) (D := TripIn c L) (fun _ hx => (Settled.ptBody hc hx).answer) e a hs hx⟩

theorem up2 {α : Type} {m : M α} (hm : Settled c (Alike1 E L) (Keeps1 E L) m) : Settled c (Alike2 E c L) (Keeps2 E c L) m :=
  hm.lift (fun _ _ a => a.alike) fun _ _ e a => ⟨alike2_of hc e a.1 a.2.1, a.2.2⟩

end

/-! ## Routes -/

theorem routeStops_run (r : Nat) (h : Heap) : routeStops r h = (.ok (h.core.route r).stops, h) := rfl

theorem lastStop_run (r : Nat) (h : Heap) : Jinete.lastStop r h = (match (h.core.route r).stops.getLast? with
    | none => .error .indexError
    | some s => .ok s, h) := by
  unfold Jinete.lastStop
  rw [Py.bind_run, routeStops_run]
  simp only []
  cases (h.core.route r).stops.getLast? <;> rfl

theorem firstStop_run (r : Nat) (h : Heap) : Jinete.firstStop r h = (match (h.core.route r).stops[0]? with
    | none => .error .indexError
    | some s => if (h.core.stop s).previous.isNone then .ok s else .error .assertion, h) := by
  unfold Jinete.firstStop
  rw [Py.bind_run, routeStops_run]
  simp only [Py.index]
  cases (h.core.route r).stops[0]? with
  | none => rfl
  | some s =>
    simp only []
    rw [Py.bind_run]
    show (Py.read >>= _ : M Nat) h = _
    rw [Py.read_bind]
    cases (h.core.stop s).previous <;> rfl

theorem lastStop_ok {r : Nat} {h : Heap} {s : Nat} (e : (Jinete.lastStop r h).1 = .ok s) : s ∈ (h.core.route r).stops := by
  rw [lastStop_run] at e
  cases e1 : (h.core.route r).stops.getLast? with
  | none => rw [e1] at e; cases e
  | some x => rw [e1] at e; cases e; exact List.mem_of_getLast? e1

theorem firstStop_ok {r : Nat} {h : Heap} {s : Nat} (e : (Jinete.firstStop r h).1 = .ok s) : s ∈ (h.core.route r).stops := by
  rw [firstStop_run] at e
  cases e1 : (h.core.route r).stops[0]? with
  | none => rw [e1] at e; cases e
  | some x =>
    rw [e1] at e
    simp only at e
    split at e
    · cases e; exact List.mem_of_getElem? e1
    · cases e

section
variable {A F : Heap → Heap → Prop} (hA : AlikeNow A) (hF : AlikeNow F)
include hA hF

theorem lastStop (r : Nat) : Settled c A F (lastStop r) := attr hA hF (fun c => match (c.route r).stops.getLast? with
    | none => .error .indexError
    | some s => .ok s) (lastStop_run r)
theorem firstStop (r : Nat) : Settled c A F (firstStop r) := attr hA hF (fun c => match (c.route r).stops[0]? with
    | none => .error .indexError
    | some s => if (c.stop s).previous.isNone then .ok s else .error .assertion) (firstStop_run r)

end

section
variable (hc : Grounded c L) {r : Nat} (hr : RouteIn c L r)
include hr

theorem _root_.Jinete.RouteIn.last (h : Heap) (s : Nat) (e : h.core = c) (es : (Jinete.lastStop r h).1 = .ok s) : L s :=
  (hr s (by rw [← e]; exact lastStop_ok es)).1
theorem _root_.Jinete.RouteIn.first (h : Heap) (s : Nat) (e : h.core = c) (es : (Jinete.firstStop r h).1 = .ok s) : L s :=
  (hr s (by rw [← e]; exact firstStop_ok es)).1
theorem _root_.Jinete.RouteIn.trip : ∀ p ∈ routePlannedTrips c r, TripIn c L p := by
  intro p hp
  obtain ⟨s, hs, hp⟩ := List.mem_flatMap.1 hp
  exact (hr s hs).2 p hp

include hc

theorem routeDuration : Settled c (AlikeTimes E L) (SameVerdicts E L) (routeDuration E r) := by
  unfold Jinete.routeDuration
  exact bindOn (alikeTimes E L) (sameVerdicts E L) (fun _ _ a => a.toAlikeTimes) (lastStop (alikeTimes E L) (sameVerdicts E L) r) hr.last fun s hs =>
    bind0 (departure hc hs) fun _ =>
      bindOn (alikeTimes E L) (sameVerdicts E L) (fun _ _ a => a.toAlikeTimes) (firstStop (alikeTimes E L) (sameVerdicts E L) r) hr.first fun s hs =>
        bind0 (departure hc hs) fun _ => pure (sameVerdicts E L) _

theorem lastDeparture : Settled c (AlikeTimes E L) (SameVerdicts E L) (Jinete.lastStop r >>= fun s => Jinete.departure E s) :=
  bindOn (alikeTimes E L) (sameVerdicts E L) (fun _ _ a => a.toAlikeTimes) (lastStop (alikeTimes E L) (sameVerdicts E L) r) hr.last fun _ hs =>
    departure hc hs

theorem tripDurations : Settled c (AlikeTimes E L) (SameVerdicts E L) (Py.mapEach (routePlannedTrips c r) (Jinete.ptDuration E)) :=
  mapEach (alikeTimes E L) (sameVerdicts E L) (fun _ _ a => a.toAlikeTimes) fun p hp => ptDuration hc (hr.trip p hp)

theorem routeTransitTime : Settled c (AlikeTimes E L) (SameVerdicts E L) (routeTransitTime E r) := by
  unfold Jinete.routeTransitTime
  refine read (alikeTimes E L) (fun h e => ?_) fun h h' e => by simp only [e]
  rw [e]
  exact bind0 (tripDurations hc hr) fun _ => pure (sameVerdicts E L) _

theorem routeWaitingTime : Settled c (AlikeTimes E L) (SameVerdicts E L) (routeWaitingTime E r) := by
  unfold Jinete.routeWaitingTime
  refine bindOn (alikeTimes E L) (sameVerdicts E L) (fun _ _ a => a.toAlikeTimes) (P := fun l => l = (c.route r).stops)
    (attr (alikeTimes E L) (sameVerdicts E L) (fun c => .ok (c.route r).stops) (routeStops_run r)) (fun h a e ea => ?_) fun l hl => ?_
  · rw [routeStops_run] at ea
    cases ea
    rw [e]
  · subst hl
    exact bind0 (mapEach (alikeTimes E L) (sameVerdicts E L) (fun _ _ a => a.toAlikeTimes) fun s hs => waitingTime hc (hr s hs).1) fun _ =>
      pure (sameVerdicts E L) _

theorem feasiblePlannedTrips : Settled c (Alike2 E c L) (Keeps2 E c L) (feasiblePlannedTrips E r) := by
  unfold Jinete.feasiblePlannedTrips
  refine read alike2 (fun h e => ?_) fun h h' e => by simp only [e]
  rw [e]
  exact bind2 (mapEach alike2 keeps2 (fun _ _ a => a.1) fun p hp => ptFeasible hc (hr.trip p hp)) fun _ => pure keeps2 _

theorem routeBody : Settled c (Alike2 E c L) (Keeps2 E c L) (routeFeasible.body E r) := by
  have k2 : AlikeNow (Keeps2 E c L) := keeps2
  have up {α : Type} {m : M α} (hm : Settled c (AlikeTimes E L) (SameVerdicts E L) m) : Settled c (Alike2 E c L) (Keeps2 E c L) m :=
    up2 hc (up1 hc hm)
  unfold routeFeasible.body
  refine read alike2 (fun h e => ?_) fun h h' e => by simp only [e]
  exact bind2 (firstStop alike2 k2 r) fun _ => ite (pure k2 _) (bindOn alike2 k2 (fun _ _ a => a.1) (firstStop alike2 k2 r) hr.first fun s hs =>
    bind2 (up (arrival hc hs)) fun _ => ite (pure k2 _) (bind2 (lastStop alike2 k2 r) fun _ => ite (pure k2 _)
      (bindOn alike2 k2 (fun _ _ a => a.1) (lastStop alike2 k2 r) hr.last fun s hs => bind2 (up (departure hc hs)) fun _ => ite (pure k2 _)
        (bind2 (up (routeDuration hc hr)) fun _ => ite (pure k2 _) (bind2 (feasiblePlannedTrips hc hr) fun _ => ite (pure k2 _) (pure k2 _))))))

theorem routeFeasible : Settled c (Alike3 E c L) (Alike3 E c L) (routeFeasible E r) :=
  (Settled.memoised (get := Heap.rfeas) (put := putRoute) (body := routeFeasible.body E) (D := RouteIn c L) alike2 keeps2 (fun _ _ a => a.1)
    (fun _ _ a => a.2)
    (fun _ _ _ e => alike2_of hc e (alike1_of hc e ⟨rfl, fun s anc _ _ => shown_congr (by rfl) (by rfl) (by rfl) anc s,
      fun s anc _ _ => shownLoad_congr (by rfl) (by rfl) anc s,
      fun _ _ => ⟨rfl, rfl, rfl⟩⟩ rfl) rfl)
    (fun _ _ _ => rfl) (K := fun _ _ => True) (fun _ _ _ => trivial)
    (fun _ _ _ _ a => a) (fun _ hx => routeBody hc hx) hr).lift (fun _ _ a => a) fun _ _ _ a => a.1

end

section
variable (hc : Grounded c L)
include hc

theorem _root_.Jinete.alike3_of {h h' : Heap} (e : h.core = c) (a : Alike2 E c L h h') (hs : h'.rfeas = h.rfeas) : Alike3 E c L h h' :=
  ⟨a, fun _ hx => memoised_same (get := Heap.rfeas) (put := putRoute) (body := routeFeasible.body E) (D := RouteIn c L)
    (fun _ hx => (Settled.routeBody hc hx).answer) e a hs hx⟩

theorem up3 {α : Type} {m : M α} (hm : Settled c (Alike2 E c L) (Keeps2 E c L) m) : Settled c (Alike3 E c L) (Alike3 E c L) m :=
  hm.lift (fun _ _ a => a.alike) fun _ _ e a => alike3_of hc e a.1 a.2

/-- Questions about times and loads, among all questions. -/
theorem up {α : Type} {m : M α} (hm : Settled c (AlikeTimes E L) (SameVerdicts E L) m) : Settled c (Alike3 E c L) (Alike3 E c L) m :=
  up3 hc (up2 hc (up1 hc hm))

end

/-! ## Objectives and criteria -/

theorem distanceWalk {A F : Heap → Heap → Prop} (hA : AlikeNow A) (hF : AlikeNow F) (hFA : ∀ h h', F h h' → A h h') (u : Option Nat) (n : Nat) :
    ∀ (s : Option Nat) (a : ℚ), Settled c A F (distanceWalk E u n s a) := by
  induction n with
  | zero => exact fun _ _ => raise hF _
  | succ n ih =>
    intro s a
    refine ite (pure hF _) (bind hA hF hFA (unwrap hF _ _) fun x => read hA (fun h e => ?_) fun h h' e => by simp only [e])
    split
    · exact pure hF _
    · exact ih _ _

section
variable (hc : Grounded c L)
include hc

theorem objectivePlannedTrip (k : Objective) {p : Nat} (hp : TripIn c L p) : Settled c (Alike3 E c L) (Alike3 E c L) (k.plannedTrip E p) := by
  have k3 : AlikeNow (Alike3 E c L) := alike3
  cases k with
  | dialARide =>
    exact read k3 (fun h e => bind3 (distanceWalk k3 k3 (fun _ _ a => a) _ _ _ _) fun _ => pure k3 _) fun h h' e => by simp only [e]
  | taxiSharing =>
    exact read k3 (fun h e => ite (pure k3 _) (bind3 (up hc (ptDuration hc hp)) fun _ => pure k3 _)) fun h h' e => by simp only [e]
  | hashCode =>
    exact read k3 (fun h e => ite (pure k3 _) (bind3 (up hc (pickupTime hc hp)) fun _ => pure k3 _)) fun h h' e => by simp only [e]

theorem objectiveStop (k : Objective) {s : Nat} (hs : ∀ p ∈ (c.stop s).pickups, TripIn c L p) :
    Settled c (Alike3 E c L) (Alike3 E c L) (k.stop E s) := by
  refine read alike3 (fun h e => ?_) fun h h' e => by simp only [e]
  rw [e]
  exact bind3 (mapEach alike3 alike3 (fun _ _ a => a) fun p hp => objectivePlannedTrip hc k (hs p hp)) fun _ => pure alike3 _

theorem objectiveRoute (k : Objective) {r : Nat} (hr : RouteIn c L r) : Settled c (Alike3 E c L) (Alike3 E c L) (k.route E r) := by
  have k3 : AlikeNow (Alike3 E c L) := alike3
  unfold Objective.route
  refine read k3 (fun h e => ?_) fun h h' e => by simp only [e]
  have hm (k : Objective) : Settled c (Alike3 E c L) (Alike3 E c L) (Py.mapEach (h.core.route r).stops (k.stop E)) :=
    mapEach k3 k3 (fun _ _ a => a) fun s hs => objectiveStop hc k (hr s (by rw [← e]; exact hs)).2
  cases k with
  | dialARide => exact pure k3 _
  | taxiSharing => exact bind3 (hm _) fun _ => pure k3 _
  | hashCode => exact bind3 (hm _) fun _ => pure k3 _

theorem objectivePlanning (k : Objective) {l : List Nat} (hl : ∀ r ∈ l, RouteIn c L r) :
    Settled c (Alike3 E c L) (Alike3 E c L) (k.planning E l) :=
  bind3 (mapEach alike3 alike3 (fun _ _ a => a) fun r hr => objectiveRoute hc k (hl r hr)) fun _ => pure alike3 _

variable {K α : Type}

omit hc in
theorem keyed {key : α → M K} {l : List α} (hk : ∀ a ∈ l, Settled c (Alike3 E c L) (Alike3 E c L) (key a)) :
    Settled c (Alike3 E c L) (Alike3 E c L) (keyed key l) :=
  mapEach alike3 alike3 (fun _ _ a => a) fun x hx => bind3 (hk x hx) fun _ => pure alike3 _

omit hc in
theorem bestOf [LinearOrder K] (d : Direction) {key : α → M K} {l : List (Option α)}
    (hk : ∀ a, some a ∈ l → Settled c (Alike3 E c L) (Alike3 E c L) (key a)) :
    Settled c (Alike3 E c L) (Alike3 E c L) (bestOf d key l) :=
  bind3 (keyed fun a ha => hk a (by simpa using ha)) fun _ => pure alike3 _

theorem criterionValue (k : Criterion) {r : Nat} (hr : RouteIn c L r) : Settled c (Alike3 E c L) (Alike3 E c L) (k.value E r) := by
  have k3 : AlikeNow (Alike3 E c L) := alike3
  cases k with
  | earliestLastDeparture => exact up hc (lastDeparture hc hr)
  | shortestAverageDuration =>
    refine read k3 (fun h e => ?_) fun h h' e => by simp only [e]
    rw [e]
    exact ite (pure k3 _) (bind3 (up hc (tripDurations hc hr)) fun _ => pure k3 _)
  | shortestTime => exact up hc (routeDuration hc hr)
  | longestTime => exact up hc (routeDuration hc hr)
  | longestUtilTime => exact read k3 (fun h e => pure k3 _) fun h h' e => by simp only [e]
  | hashCode =>
    refine read k3 (fun h e => ?_) fun h h' e => by simp only [e]
    rw [e]
    exact bind3 (mapEach k3 k3 (fun _ _ a => a) fun p hp => read k3 (fun h e => bind3 (up hc (pickupTime hc (hr.trip p hp))) fun _ =>
      pure k3 _) fun h h' e => by simp only [e]) fun _ => pure k3 _

theorem scoring (k : Criterion) {r : Nat} (hr : RouteIn c L r) : Settled c (Alike3 E c L) (Alike3 E c L) (k.scoring E r) :=
  bind3 (routeFeasible hc hr) fun _ => ite (pure alike3 _) (bind3 (criterionValue hc k hr) fun _ => pure alike3 _)

theorem planningFeasible {l : List Nat} (hl : ∀ r ∈ l, RouteIn c L r) : Settled c (Alike3 E c L) (Alike3 E c L) (planningFeasible E l) := by
  refine bind3 (mapEach alike3 alike3 (fun _ _ a => a) fun r hr => routeFeasible hc (hl r hr)) fun bs => ?_
  cases bs with
  | nil => exact raise alike3 _
  | cons b bs => exact pure alike3 _

omit hc in
theorem coverageRate (a b : List Nat) : Settled c (Alike3 E c L) (Alike3 E c L) (coverageRate E a b) :=
  read alike3 (fun h e => ite (raise alike3 _) (pure alike3 _)) fun h h' e => by simp only [e]

theorem optimizeWith (k : Objective) {l : List Nat} (hl : ∀ r ∈ l, RouteIn c L r) :
    Settled c (Alike3 E c L) (Alike3 E c L) (optimizeWith E k l) :=
  bind3 (planningFeasible hc hl) fun _ => bind3 (objectivePlanning hc k hl) fun _ => pure alike3 _

end

end Settled

end Jinete
