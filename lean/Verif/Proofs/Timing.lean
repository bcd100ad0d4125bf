import Verif.Model.Route
import Verif.Spec.RouteState

/-!
# Reading times along `previous`

`Anc c s anc`: the chain of `previous` pointers of `s` is `anc` and ends. `tmRev` is the schedule
recurrence along such a chain. `Grows` relates a heap to one with the same objects and more (correct)
memoised times. `Reads` says that a method returns a given value in every coherent heap.
-/

set_option autoImplicit false

namespace Jinete

variable (E : Env)

/-- `anc` is the complete list of predecessors of `s`, nearest first. -/
def Anc (c : Core) (s : Nat) : List Nat → Prop
  | [] => (c.stop s).previous = none
  | p :: anc => (c.stop s).previous = some p ∧ Anc c p anc

theorem Anc.unique {c : Core} {s : Nat} {a b : List Nat} (ha : Anc c s a) (hb : Anc c s b) : a = b := by
  induction a generalizing s b with
  | nil =>
    cases b with
    | nil => rfl
    | cons p b => simp only [Anc] at ha hb; rw [ha] at hb; cases hb.1
  | cons p a ih =>
    cases b with
    | nil => simp only [Anc] at ha hb; rw [hb] at ha; cases ha.1
    | cons q b =>
      simp only [Anc] at ha hb
      have : p = q := by have := ha.1.symm.trans hb.1; simpa using this
      subst this
      rw [ih ha.2 hb.2]

theorem stopEarliest_eq (c : Core) (s : Nat) : stopEarliest E c s = (visitOf c s).earliest E := by
  simp [stopEarliest, Visit.earliest, visitOf, ptTrip, Function.comp_def]

theorem stopLoadTime_eq (c : Core) (s : Nat) : stopLoadTime E c s = (visitOf c s).loadTime E := by
  simp [stopLoadTime, Visit.loadTime, visitOf, ptTrip, Function.comp_def]

/-- The schedule recurrence along a chain of predecessors. -/
def tmRev (c : Core) (s : Nat) : List Nat → Tm
  | [] => serve E (E.vehicle (c.stop s).vehicle).origin.earliest
      (E.vehicle (c.stop s).vehicle).origin.position (visitOf c s)
  | p :: anc => serve E (tmRev c p anc).dep (c.stop p).position (visitOf c s)

/-- The load recurrence along a chain of predecessors. -/
def loadRev (c : Core) (s : Nat) : List Nat → ℚ
  | [] => 0 + tripsCapacity E (visitOf c s).picks - tripsCapacity E (visitOf c s).drops
  | p :: anc => loadRev c p anc + tripsCapacity E (visitOf c s).picks - tripsCapacity E (visitOf c s).drops

/-- The memoised numbers of stop `s` are those of the recurrence. -/
def CohAt (h : Heap) (s : Nat) : Prop :=
  ∀ anc, Anc h.core s anc →
    (∀ v, h.arr s = some v → v = (tmRev E h.core s anc).arr) ∧
    (∀ v, h.dep s = some v → v = (tmRev E h.core s anc).dep) ∧
    (∀ v, h.cap s = some v → v = loadRev E h.core s anc)

/-- `h'` has the objects of `h`, the same verdicts, and possibly more memoised numbers, all correct. -/
structure Grows (h h' : Heap) : Prop where
  core : h'.core = h.core
  sfeas : h'.sfeas = h.sfeas
  pfeas : h'.pfeas = h.pfeas
  rfeas : h'.rfeas = h.rfeas
  arr : ∀ s, h'.arr s = h.arr s ∨ ∃ anc, Anc h.core s anc ∧ h'.arr s = some (tmRev E h.core s anc).arr
  dep : ∀ s, h'.dep s = h.dep s ∨ ∃ anc, Anc h.core s anc ∧ h'.dep s = some (tmRev E h.core s anc).dep
  cap : ∀ s, h'.cap s = h.cap s ∨ ∃ anc, Anc h.core s anc ∧ h'.cap s = some (loadRev E h.core s anc)

variable {E}

theorem Grows.refl (h : Heap) : Grows E h h :=
  ⟨rfl, rfl, rfl, rfl, fun _ => .inl rfl, fun _ => .inl rfl, fun _ => .inl rfl⟩

theorem Grows.trans {h1 h2 h3 : Heap} (a : Grows E h1 h2) (b : Grows E h2 h3) : Grows E h1 h3 := by
  refine ⟨b.core.trans a.core, b.sfeas.trans a.sfeas, b.pfeas.trans a.pfeas, b.rfeas.trans a.rfeas, ?_, ?_, ?_⟩
  · intro s
    rcases b.arr s with e | e
    · rw [e]; exact a.arr s
    · rw [a.core] at e; exact .inr e
  · intro s
    rcases b.dep s with e | e
    · rw [e]; exact a.dep s
    · rw [a.core] at e; exact .inr e
  · intro s
    rcases b.cap s with e | e
    · rw [e]; exact a.cap s
    · rw [a.core] at e; exact .inr e

theorem Grows.coh {h h' : Heap} (g : Grows E h h') {s : Nat} (hs : CohAt E h s) : CohAt E h' s := by
  intro anc ha
  rw [g.core] at ha ⊢
  obtain ⟨h1, h2, h3⟩ := hs anc ha
  refine ⟨?_, ?_, ?_⟩
  · intro v hv
    rcases g.arr s with e | ⟨anc', ha', e⟩
    · rw [e] at hv; exact h1 v hv
    · rw [ha.unique ha', ← Option.some.injEq, ← hv, e]
  · intro v hv
    rcases g.dep s with e | ⟨anc', ha', e⟩
    · rw [e] at hv; exact h2 v hv
    · rw [ha.unique ha', ← Option.some.injEq, ← hv, e]
  · intro v hv
    rcases g.cap s with e | ⟨anc', ha', e⟩
    · rw [e] at hv; exact h3 v hv
    · rw [ha.unique ha', ← Option.some.injEq, ← hv, e]

/-- In every heap with the objects `c` and correct memoised numbers on the stops `L`, the method `m`
returns `a` and only adds correct memoised numbers. -/
def Reads (E : Env) (c : Core) (L : List Nat) {α : Type} (m : M α) (a : α) : Prop :=
  ∀ h : Heap, h.core = c → (∀ s ∈ L, CohAt E h s) → ∃ h', m h = (.ok a, h') ∧ Grows E h h'

namespace Reads

variable {c : Core} {L : List Nat} {α β : Type}

theorem pure (a : α) : Reads E c L (Pure.pure a : M α) a := fun h _ _ => ⟨h, rfl, Grows.refl h⟩

theorem bind {m : M α} {f : α → M β} {a : α} {b : β} (hm : Reads E c L m a) (hf : Reads E c L (f a) b) :
    Reads E c L (m >>= f) b := by
  intro h hc hL
  obtain ⟨h1, e1, g1⟩ := hm h hc hL
  obtain ⟨h2, e2, g2⟩ := hf h1 (g1.core.trans hc) (fun s hs => g1.coh (hL s hs))
  exact ⟨h2, by rw [Py.bind_ok e1, e2], g1.trans g2⟩

/-- Reading the heap: the continuation may use that its core is `c`. -/
theorem read {f : Heap → M β} {b : β} (hf : ∀ h : Heap, h.core = c → Reads E c L (f h) b) :
    Reads E c L (Py.read >>= f) b := by
  intro h hc hL
  exact hf h hc h hc hL

theorem assert {p : Bool} (hp : p = true) : Reads E c L (Py.assert p) () := by
  subst hp; exact fun h _ _ => ⟨h, rfl, Grows.refl h⟩

theorem index {l : List α} {i : Nat} {a : α} (h : l[i]? = some a) : Reads E c L (Py.index l i) a := by
  unfold Py.index; rw [h]; exact pure a

theorem unwrap {e : Err} {o : Option α} {a : α} (h : o = some a) : Reads E c L (Py.unwrap e o) a := by
  subst h; exact pure a

theorem mono {L' : List Nat} {m : M α} {a : α} (h : Reads E c L m a) (hL : ∀ s ∈ L, s ∈ L') :
    Reads E c L' m a := fun h0 hc hL' => h h0 hc fun s hs => hL' s (hL s hs)

theorem mapEach {l : List α} {f : α → M β} {g : α → β} (h : ∀ x ∈ l, Reads E c L (f x) (g x)) :
    Reads E c L (Py.mapEach l f) (l.map g) := by
  induction l with
  | nil => exact pure _
  | cons x l ih =>
    exact bind (h x (by simp)) (bind (ih fun y hy => h y (by simp [hy])) (pure _))

end Reads

/-! ## The getters -/

theorem prevDepartureWith_reads {c : Core} {L : List Nat} {dep : Nat → M ℚ} {s : Nat} {v : ℚ}
    (h0 : (c.stop s).previous = none → v = (E.vehicle (c.stop s).vehicle).origin.earliest)
    (h1 : ∀ p, (c.stop s).previous = some p → Reads E c L (dep p) v) :
    Reads E c L (prevDepartureWith E dep s) v := by
  refine Reads.read fun h hc => ?_
  subst hc
  cases hp : (h.core.stop s).previous with
  | none => rw [h0 hp]; exact Reads.pure _
  | some p => exact h1 p hp

theorem transitTimeWith_reads {c : Core} {L : List Nat} {dep : Nat → M ℚ} {s : Nat} {v : ℚ}
    (h1 : Reads E c L (prevDepartureWith E dep s) v) :
    Reads E c L (transitTimeWith E dep s) (E.metric (stopPrevPosition E c s) (c.stop s).position) := by
  refine Reads.read fun h hc => ?_
  subst hc
  exact h1.bind (Reads.pure _)

/-- The value `arrival_time` should have given the departure from the previous stop. -/
theorem arrivalWith_reads {c : Core} {L : List Nat} {dep : Nat → M ℚ} {s : Nat} {anc : List Nat} {v : ℚ}
    (ha : Anc c s anc) (hs : s ∈ L) (h1 : Reads E c L (prevDepartureWith E dep s) v)
    (hv : v + E.metric (stopPrevPosition E c s) (c.stop s).position = (tmRev E c s anc).arr) :
    Reads E c L (arrivalWith E dep s) (tmRev E c s anc).arr := by
  intro h hc hL
  subst hc
  unfold arrivalWith
  simp only [Py.read_bind]
  cases hcache : h.arr s with
  | some w =>
    obtain ⟨q, _, _⟩ := hL s hs anc ha
    exact ⟨h, by simp [q w hcache], Grows.refl h⟩
  | none =>
    obtain ⟨ha1, e1, g1⟩ := h1 h rfl hL
    obtain ⟨ha2, e2, g2⟩ := transitTimeWith_reads h1 ha1 g1.core (fun x hx => g1.coh (hL x hx))
    have g12 := g1.trans g2
    refine ⟨{ ha2 with arr := Function.update ha2.arr s (some (tmRev E h.core s anc).arr) }, ?_, ?_⟩
    · simp only
      rw [Py.bind_ok e1, Py.bind_ok e2]
      simp [hv]
    · refine g12.trans ⟨rfl, rfl, rfl, rfl, ?_, fun _ => .inl rfl, fun _ => .inl rfl⟩
      intro x
      by_cases hx : x = s
      · subst hx
        refine .inr ⟨anc, by rw [g12.core]; exact ha, by simp [g12.core]⟩
      · exact .inl (by simp [hx])

theorem startingWith_reads {c : Core} {L : List Nat} {dep : Nat → M ℚ} {s : Nat} {anc : List Nat}
    (h1 : Reads E c L (arrivalWith E dep s) (tmRev E c s anc).arr) :
    Reads E c L (startingWith E dep s) (tmRev E c s anc).start := by
  have key : (tmRev E c s anc).start =
      max (max ((c.stop s).start.getD (tmRev E c s anc).arr) (stopEarliest E c s)) (tmRev E c s anc).arr := by
    rw [stopEarliest_eq]
    cases anc <;> rfl
  refine Reads.read fun h hc => ?_
  subst hc
  cases hst : (h.core.stop s).start with
  | some v =>
    simp only
    rw [hst] at key
    exact h1.bind (by rw [key]; exact Reads.pure _)
  | none =>
    simp only
    rw [hst] at key
    exact h1.bind (h1.bind (by rw [key]; exact Reads.pure _))

/-- Reading `departure_time` of `s` with enough recursion depth returns the recurrence value. -/
theorem departureF_reads {c : Core} {L : List Nat} (n : Nat) :
    ∀ (s : Nat) (anc : List Nat), Anc c s anc → (∀ x ∈ s :: anc, x ∈ L) → anc.length < n →
      Reads E c L (departureF E n s) (tmRev E c s anc).dep := by
  induction n with
  | zero => intro s anc _ _ h; exact absurd h (by simp)
  | succ n ih =>
    intro s anc ha hsub hlen h hc hL
    subst hc
    unfold departureF
    simp only [Py.read_bind]
    cases hcache : h.dep s with
    | some w =>
      obtain ⟨_, q, _⟩ := hL s (hsub s (by simp)) anc ha
      exact ⟨h, by simp [q w hcache], Grows.refl h⟩
    | none =>
      have harr : Reads E h.core L (arrivalWith E (departureF E n) s) (tmRev E h.core s anc).arr := by
        cases anc with
        | nil =>
          refine arrivalWith_reads (v := (E.vehicle (h.core.stop s).vehicle).origin.earliest) ha
            (hsub s (by simp)) (prevDepartureWith_reads (fun _ => rfl) ?_) ?_
          · intro p hp; rw [show (h.core.stop s).previous = none from ha] at hp; cases hp
          · simp [tmRev, serve, stopPrevPosition, show (h.core.stop s).previous = none from ha, visitOf]
        | cons p anc =>
          obtain ⟨hp, ha'⟩ := ha
          refine arrivalWith_reads (v := (tmRev E h.core p anc).dep) (anc := p :: anc) ⟨hp, ha'⟩
            (hsub s (by simp)) (prevDepartureWith_reads (fun h0 => by rw [hp] at h0; cases h0) ?_) ?_
          · intro p' hp'
            rw [hp] at hp'; cases hp'
            exact ih p anc ha' (fun x hx => hsub x (by simp only [List.mem_cons] at hx ⊢; exact .inr hx))
              (by simpa using hlen)
          · simp [tmRev, serve, stopPrevPosition, hp, visitOf]
      obtain ⟨h2, e2, g2⟩ := startingWith_reads harr h rfl hL
      have hdep : (tmRev E h.core s anc).start + stopLoadTime E h.core s = (tmRev E h.core s anc).dep := by
        rw [stopLoadTime_eq]; cases anc <;> rfl
      refine ⟨{ h2 with dep := Function.update h2.dep s (some (tmRev E h.core s anc).dep) }, ?_, ?_⟩
      · simp only
        rw [Py.bind_ok e2]
        simp [hdep]
      · refine g2.trans ⟨rfl, rfl, rfl, rfl, fun _ => .inl rfl, ?_, fun _ => .inl rfl⟩
        intro x
        by_cases hx : x = s
        · subst hx
          refine .inr ⟨anc, by rw [g2.core]; exact ha, by simp [g2.core]⟩
        · exact .inl (by simp [hx])

section
variable {c : Core} {L : List Nat} {s : Nat} {anc : List Nat}

theorem arrivalF_reads (n : Nat) (ha : Anc c s anc) (hsub : ∀ x ∈ s :: anc, x ∈ L) (hlen : anc.length ≤ n) :
    Reads E c L (arrivalWith E (departureF E n) s) (tmRev E c s anc).arr := by
  cases anc with
  | nil =>
    refine arrivalWith_reads (v := (E.vehicle (c.stop s).vehicle).origin.earliest) ha
      (hsub s (by simp)) (prevDepartureWith_reads (fun _ => rfl) ?_) ?_
    · intro p hp; rw [show (c.stop s).previous = none from ha] at hp; cases hp
    · simp [tmRev, serve, stopPrevPosition, show (c.stop s).previous = none from ha, visitOf]
  | cons p anc =>
    obtain ⟨hp, ha'⟩ := ha
    refine arrivalWith_reads (v := (tmRev E c p anc).dep) (anc := p :: anc) ⟨hp, ha'⟩
      (hsub s (by simp)) (prevDepartureWith_reads (fun h0 => by rw [hp] at h0; cases h0) ?_) ?_
    · intro p' hp'
      rw [hp] at hp'; cases hp'
      exact departureF_reads n p anc ha' (fun x hx => hsub x (by simp only [List.mem_cons] at hx ⊢; exact .inr hx))
        (by simp only [List.length_cons] at hlen; omega)
    · simp [tmRev, serve, stopPrevPosition, hp, visitOf]

/-- The chain fits the recursion depth. -/
theorem reads_fuel {α : Type} {m : Nat → M α} {a : α} (hm : Reads E c L (m (c.nStop + 1)) a) :
    Reads E c L (fun h => m h.fuel h) a := by
  intro h hc hL
  obtain ⟨h', e, g⟩ := hm h hc hL
  exact ⟨h', by simp only [Heap.fuel, hc]; exact e, g⟩

theorem departure_reads (ha : Anc c s anc) (hsub : ∀ x ∈ s :: anc, x ∈ L) (hlen : anc.length ≤ c.nStop) :
    Reads E c L (departure E s) (tmRev E c s anc).dep :=
  reads_fuel (m := fun n => departureF E n s) (departureF_reads _ s anc ha hsub (by omega))

theorem arrival_reads (ha : Anc c s anc) (hsub : ∀ x ∈ s :: anc, x ∈ L) (hlen : anc.length ≤ c.nStop) :
    Reads E c L (arrival E s) (tmRev E c s anc).arr :=
  reads_fuel (m := fun n => arrivalWith E (departureF E n) s) (arrivalF_reads _ ha hsub (by omega))

theorem starting_reads (ha : Anc c s anc) (hsub : ∀ x ∈ s :: anc, x ∈ L) (hlen : anc.length ≤ c.nStop) :
    Reads E c L (starting E s) (tmRev E c s anc).start :=
  reads_fuel (m := fun n => startingWith E (departureF E n) s)
    (startingWith_reads (arrivalF_reads _ ha hsub (by omega)))

theorem start_ge_arr (c : Core) (s : Nat) (anc : List Nat) : (tmRev E c s anc).arr ≤ (tmRev E c s anc).start := by
  cases anc <;> exact le_max_right _ _

theorem start_ge_earliest (c : Core) (s : Nat) (anc : List Nat) :
    stopEarliest E c s ≤ (tmRev E c s anc).start := by
  rw [stopEarliest_eq]
  cases anc <;> exact le_trans (le_max_right _ _) (le_max_left _ _)

theorem waitingTime_reads (ha : Anc c s anc) (hsub : ∀ x ∈ s :: anc, x ∈ L) (hlen : anc.length ≤ c.nStop) :
    Reads E c L (waitingTime E s) ((tmRev E c s anc).start - (tmRev E c s anc).arr) := by
  refine (starting_reads ha hsub hlen).bind ((arrival_reads ha hsub hlen).bind
    ((Reads.assert ?_).bind (Reads.pure _)))
  have := start_ge_arr (E := E) c s anc
  simp only [ge_iff_le, decide_eq_true_eq, errorBound]
  linarith

/-- Reading `capacity` returns the load recurrence, provided no prefix load is negative. -/
theorem capacityF_reads (n : Nat) :
    ∀ (s : Nat) (anc : List Nat), Anc c s anc → (∀ x ∈ s :: anc, x ∈ L) → anc.length < n →
      (∀ x anc', (x :: anc') <:+ (s :: anc) → 0 ≤ loadRev E c x anc') →
      Reads E c L (capacityF E n s) (loadRev E c s anc) := by
  induction n with
  | zero => intro s anc _ _ h; exact absurd h (by simp)
  | succ n ih =>
    intro s anc ha hsub hlen hnn h hc hL
    subst hc
    unfold capacityF
    simp only [Py.read_bind]
    cases hcache : h.cap s with
    | some w =>
      obtain ⟨_, _, q⟩ := hL s (hsub s (by simp)) anc ha
      exact ⟨h, by simp [q w hcache], Grows.refl h⟩
    | none =>
      have hprev : ∃ pc, Reads E h.core L (prevCapacityWith (capacityF E n) s) pc ∧
          pc + sumCapacity E h.core (h.core.stop s).pickups - sumCapacity E h.core (h.core.stop s).deliveries
            = loadRev E h.core s anc := by
        have sc : ∀ l : List Nat, sumCapacity E h.core l = tripsCapacity E (l.map fun p => (h.core.pt p).trip) := by
          intro l; simp [sumCapacity, tripsCapacity, ptTrip, Function.comp_def]
        cases anc with
        | nil =>
          refine ⟨0, Reads.read fun h' hc' => ?_, by rw [sc, sc]; rfl⟩
          rw [hc', show (h.core.stop s).previous = none from ha]
          exact Reads.pure 0
        | cons p anc =>
          refine ⟨loadRev E h.core p anc, Reads.read fun h' hc' => ?_, by rw [sc, sc]; rfl⟩
          rw [hc', ha.1]
          refine ih p anc ha.2 ?_ (by simpa using hlen) ?_
          · exact fun x hx => hsub x (by simp only [List.mem_cons] at hx ⊢; exact .inr hx)
          · exact fun x anc' hx => hnn x anc' (hx.trans (List.suffix_cons _ _))
      obtain ⟨pc, hpc, hval⟩ := hprev
      obtain ⟨h2, e2, g2⟩ := hpc h rfl hL
      have h0 : 0 ≤ loadRev E h.core s anc := hnn s anc (List.suffix_refl _)
      refine ⟨{ h2 with cap := Function.update h2.cap s (some (loadRev E h.core s anc)) }, ?_, ?_⟩
      · simp only
        rw [Py.bind_ok e2]
        simp only [hval, h0, decide_true]
        rfl
      · refine g2.trans ⟨rfl, rfl, rfl, rfl, fun _ => .inl rfl, fun _ => .inl rfl, ?_⟩
        intro x
        by_cases hx : x = s
        · subst hx
          refine .inr ⟨anc, by rw [g2.core]; exact ha, by simp [g2.core]⟩
        · exact .inl (by simp [hx])

theorem capacity_reads (ha : Anc c s anc) (hsub : ∀ x ∈ s :: anc, x ∈ L) (hlen : anc.length ≤ c.nStop)
    (hnn : ∀ x anc', (x :: anc') <:+ (s :: anc) → 0 ≤ loadRev E c x anc') :
    Reads E c L (capacity E s) (loadRev E c s anc) :=
  reads_fuel (m := fun n => capacityF E n s) (capacityF_reads _ s anc ha hsub (by omega) hnn)

theorem allPreviousF_reads (n : Nat) :
    ∀ (s : Nat) (anc : List Nat), Anc c s anc → anc.length < n →
      Reads E c L (allPreviousF n s) anc := by
  induction n with
  | zero => intro s anc _ h; exact absurd h (by simp)
  | succ n ih =>
    intro s anc ha hlen
    refine Reads.read fun h hc => ?_
    subst hc
    cases anc with
    | nil => rw [show (h.core.stop s).previous = none from ha]; exact Reads.pure _
    | cons p anc =>
      rw [ha.1]
      exact (ih p anc ha.2 (by simpa using hlen)).bind (Reads.pure _)

theorem allPrevious_reads (ha : Anc c s anc) (hlen : anc.length ≤ c.nStop) :
    Reads E c L (allPrevious s) anc :=
  reads_fuel (m := fun n => allPreviousF n s) (allPreviousF_reads _ s anc ha (by omega))

end

end Jinete
