import Verif.Model.Iterator

/-!
# Reasoning about methods that return or raise
-/

set_option autoImplicit false

namespace Jinete

variable {σ α β : Type}

/-- The computation returns with `Q`, or raises one of `X`. -/
def Meets (m : Py σ α) (s : σ) (Q : α → σ → Prop) (X : Err → Prop) : Prop :=
  match m s with
  | (.ok a, s') => Q a s'
  | (.error e, _) => X e

namespace Meets

variable {m : Py σ α} {s : σ} {Q Q' : α → σ → Prop} {X X' : Err → Prop}

theorem of_ok {a : α} {s' : σ} (e : m s = (.ok a, s')) (q : Q a s') : Meets m s Q X := by
  unfold Meets; rw [e]; exact q

theorem of_error {x : Err} {s' : σ} (e : m s = (.error x, s')) (q : X x) : Meets m s Q X := by
  unfold Meets; rw [e]; exact q

theorem ok (h : Meets m s Q X) {a : α} {s' : σ} (e : m s = (.ok a, s')) : Q a s' := by
  unfold Meets at h; rw [e] at h; exact h

theorem error (h : Meets m s Q X) {x : Err} {s' : σ} (e : m s = (.error x, s')) : X x := by
  unfold Meets at h; rw [e] at h; exact h

theorem mono (h : Meets m s Q X) (hq : ∀ a s', Q a s' → Q' a s') : Meets m s Q' X := by
  unfold Meets at h ⊢
  rcases e : m s with ⟨r, s'⟩
  rw [e] at h
  cases r with
  | ok a => exact hq a s' h
  | error x => exact h

theorem monoX (h : Meets m s Q X) (hx : ∀ e, X e → X' e) : Meets m s Q X' := by
  unfold Meets at h ⊢
  rcases e : m s with ⟨r, s'⟩
  rw [e] at h
  cases r with
  | ok a => exact h
  | error x => exact hx x h

theorem pure {a : α} (q : Q a s) : Meets (Pure.pure a : Py σ α) s Q X := q

theorem bind {f : α → Py σ β} {P : β → σ → Prop} (h : Meets m s Q X) (hf : ∀ a s', Q a s' → Meets (f a) s' P X) :
    Meets (m >>= f) s P X := by
  unfold Meets at h
  rcases e : m s with ⟨r, s'⟩
  rw [e] at h
  cases r with
  | ok a =>
    have := hf a s' h
    unfold Meets
    rw [Py.bind_ok e]
    exact this
  | error x => exact of_error (Py.bind_error e) h

theorem read {f : σ → Py σ β} {P : β → σ → Prop} (h : Meets (f s) s P X) : Meets (Py.read >>= f) s P X := h

theorem modify {f : Unit → Py σ β} {g : σ → σ} {P : β → σ → Prop} (h : Meets (f ()) (g s) P X) :
    Meets (Py.modify g >>= f) s P X := h

theorem modify_last {g : σ → σ} {P : Unit → σ → Prop} (h : P () (g s)) : Meets (Py.modify g) s P X := h

theorem congr {m' : Py σ α} (e : m' s = m s) (h : Meets m s Q X) : Meets m' s Q X := by
  unfold Meets at h ⊢; rw [e]; exact h

/-- A loop with an invariant on the elements done so far. -/
theorem forEach {f : α → Py σ Unit} (I : List α → σ → Prop) {l : List α} (h0 : I [] s)
    (step : ∀ (done : List α) (x : α) (s : σ), x ∈ l → I done s → Meets (f x) s (fun _ s' => I (done ++ [x]) s') X) :
    Meets (Py.forEach l f) s (fun _ s' => I l s') X := by
  have main : ∀ (rest done : List α) (s : σ), (∀ x ∈ rest, x ∈ l) → I done s →
      Meets (Py.forEach rest f) s (fun _ s' => I (done ++ rest) s') X := by
    intro rest
    induction rest with
    | nil => intro done s _ hI; exact Meets.pure (by simpa using hI)
    | cons x rest ih =>
      intro done s hl hI
      refine Meets.bind (step done x s (hl x (by simp)) hI) ?_
      intro _ s' h'
      have := ih (done ++ [x]) s' (fun y hy => hl y (by simp [hy])) h'
      simpa using this
  simpa using main l [] s (fun _ h => h) h0

theorem onHeap {m : M α} {s : IterState} {Q : α → IterState → Prop} (h : Meets m s.heap (fun a h' => Q a { s with heap := h' }) X) :
    Meets (Jinete.onHeap m) s Q X := by
  unfold Meets at h ⊢
  unfold Jinete.onHeap
  rcases e : m s.heap with ⟨r, h'⟩
  rw [e] at h
  cases r with
  | ok a => exact h
  | error x => exact h

theorem tick {s : IterState} {Q : Nat → IterState → Prop} (h : Q s.clock { s with clock := s.clock + 1 }) :
    Meets Jinete.tick s Q X := h

end Meets

/-! ## Dictionaries -/

section
variable {β : Type}

theorem lookup_of_mem {d : List (Nat × β)} (hn : (d.map Prod.fst).Nodup) {k : Nat} {v : β} (h : (k, v) ∈ d) :
    d.lookup k = some v := by
  induction d with
  | nil => simp at h
  | cons e d ih =>
    obtain ⟨a, b⟩ := e
    simp only [List.map_cons, List.nodup_cons] at hn
    rcases List.mem_cons.1 h with e | h'
    · cases e; simp [List.lookup]
    · have : k ≠ a := by
        rintro rfl
        exact hn.1 (List.mem_map.2 ⟨(k, v), h', rfl⟩)
      have hb : (k == a) = false := by simpa using this
      rw [List.lookup, hb]
      exact ih hn.2 h'

theorem mem_of_lookup {d : List (Nat × β)} {k : Nat} {v : β} (h : d.lookup k = some v) : (k, v) ∈ d := by
  induction d with
  | nil => simp at h
  | cons e d ih =>
    obtain ⟨a, b⟩ := e
    rw [List.lookup] at h
    by_cases hk : k = a
    · subst hk; simp at h; simp [h]
    · have hb : (k == a) = false := by simpa using hk
      rw [hb] at h
      exact List.mem_cons_of_mem _ (ih h)

theorem lookup_none {d : List (Nat × β)} {k : Nat} (h : d.lookup k = none) : k ∉ d.map Prod.fst := by
  intro hm
  obtain ⟨e, he, rfl⟩ := List.mem_map.1 hm
  induction d with
  | nil => simp at he
  | cons x d ih =>
    obtain ⟨a, b⟩ := x
    rw [List.lookup] at h
    by_cases hk : e.1 = a
    · simp [hk] at h
    · have hb : (e.1 == a) = false := by simpa using hk
      rw [hb] at h
      rcases List.mem_cons.1 he with rfl | he
      · exact hk rfl
      · exact ih he h (List.mem_map.2 ⟨e, he, rfl⟩)

theorem dictSet_keys_mem {d : List (Nat × β)} {k : Nat} {v : β} (h : k ∈ d.map Prod.fst) :
    (dictSet d k v).map Prod.fst = d.map Prod.fst := by
  unfold dictSet
  rw [if_pos h, List.map_map]
  apply List.map_congr_left
  intro e _
  simp only [Function.comp]
  split
  · rename_i e1; exact e1.symm
  · rfl

theorem dictSet_keys {d : List (Nat × β)} {k : Nat} {v : β} (k' : Nat) :
    k' ∈ (dictSet d k v).map Prod.fst ↔ k' = k ∨ k' ∈ d.map Prod.fst := by
  by_cases h : k ∈ d.map Prod.fst
  · rw [dictSet_keys_mem h]
    constructor
    · exact .inr
    · rintro (rfl | h')
      · exact h
      · exact h'
  · unfold dictSet
    rw [if_neg h]
    simp only [List.map_append, List.mem_append, List.map_cons, List.map_nil, List.mem_singleton]
    exact or_comm

theorem dictSet_nodup {d : List (Nat × β)} {k : Nat} {v : β} (hn : (d.map Prod.fst).Nodup) :
    ((dictSet d k v).map Prod.fst).Nodup := by
  by_cases h : k ∈ d.map Prod.fst
  · rw [dictSet_keys_mem h]; exact hn
  · unfold dictSet
    rw [if_neg h, List.map_append]
    refine List.nodup_append.2 ⟨hn, by simp, ?_⟩
    intro a ha b hb
    simp only [List.map_cons, List.map_nil, List.mem_singleton] at hb
    subst hb
    rintro rfl
    exact h ha

theorem dictSet_mem {d : List (Nat × β)} {k : Nat} {v : β} {e : Nat × β} (he : e ∈ dictSet d k v) :
    e = (k, v) ∨ (e.1 ≠ k ∧ e ∈ d) := by
  unfold dictSet at he
  split at he
  · obtain ⟨x, hx, rfl⟩ := List.mem_map.1 he
    split
    · left; rfl
    · rename_i h1; right; exact ⟨h1, hx⟩
  · rename_i h
    rcases List.mem_append.1 he with he' | he'
    · right
      exact ⟨fun hk => h (List.mem_map.2 ⟨e, he', hk⟩), he'⟩
    · left; simpa using he'

theorem dictSet_self {d : List (Nat × β)} {k : Nat} {v : β} : (k, v) ∈ dictSet d k v := by
  unfold dictSet
  split
  · rename_i h
    obtain ⟨e, he, rfl⟩ := List.mem_map.1 h
    exact List.mem_map.2 ⟨e, he, by simp⟩
  · simp

theorem dictSet_other {d : List (Nat × β)} {k : Nat} {v : β} {e : Nat × β} (he : e ∈ d) (hk : e.1 ≠ k) :
    e ∈ dictSet d k v := by
  unfold dictSet
  split
  · exact List.mem_map.2 ⟨e, he, by rw [if_neg hk]⟩
  · exact List.mem_append_left _ he

theorem dictSet_split {d : List (Nat × β)} (hn : (d.map Prod.fst).Nodup) {k : Nat} {v0 : β} (h : (k, v0) ∈ d) (v : β) :
    ∃ a b, d = a ++ (k, v0) :: b ∧ dictSet d k v = a ++ (k, v) :: b := by
  obtain ⟨a, b, rfl⟩ := List.append_of_mem h
  refine ⟨a, b, rfl, ?_⟩
  unfold dictSet
  rw [if_pos (by simp)]
  simp only [List.map_append, List.map_cons, List.nodup_append, List.nodup_cons] at hn ⊢
  have h1 : ∀ e ∈ a, e.1 ≠ k := fun e he hek => hn.2.2 e.1 (List.mem_map.2 ⟨e, he, rfl⟩) k (by simp) hek
  have h2 : ∀ e ∈ b, e.1 ≠ k := fun e he hek => hn.2.1.1 (List.mem_map.2 ⟨e, he, hek⟩)
  rw [List.map_congr_left (f := fun e => if e.1 = k then (k, v) else e) (g := id) (l := a) (fun e he => by simp [h1 e he]),
    List.map_congr_left (f := fun e => if e.1 = k then (k, v) else e) (g := id) (l := b) (fun e he => by simp [h2 e he])]
  simp

theorem mem_unique {d : List (Nat × β)} (hn : (d.map Prod.fst).Nodup) {k : Nat} {v v' : β} (h : (k, v) ∈ d) (h' : (k, v') ∈ d) :
    v = v' := by
  have := lookup_of_mem hn h
  rw [lookup_of_mem hn h'] at this
  exact (Option.some.inj this).symm

end

end Jinete
