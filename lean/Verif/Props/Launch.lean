import Verif.Model.Launch
import Mathlib.Data.List.Nodup
import Mathlib.Data.List.Perm.Basic

/-!
# C111: logs of the benchmark
-/

set_option autoImplicit false

namespace Jinete

/-- The process leaves files with this ending alone. -/
def Child.Spares (c : Child) (ending : Text) : Prop := ∀ file q, ending <:+ q → c.effect file q = file q

theorem Interleaved.perm {α : Type} {ls : List (List α)} {r : List α} (h : Interleaved ls r) : r.Perm ls.flatten := by
  induction h with
  | done h =>
    rename_i ls
    have : ls.flatten = [] := by simpa [List.flatten_eq_nil_iff] using h
    rw [this]
  | @step a b l x r _ ih =>
    rw [List.flatten_append, List.flatten_cons] at ih ⊢
    refine (List.Perm.cons x ih).trans ?_
    rw [List.cons_append]
    exact List.perm_middle.symm

/-- What the end of the process leaves to be written. -/
def ChildEnd.output : ChildEnd → Option Text
  | .completed t => some t
  | .expired t => t
  | .failed => none
  | .garbled => none

theorem mem_runOne {p : Text} {c : Child} {q t : Text} : LaunchStep.write q t ∈ runOne p c ↔ q = logPath p ∧ c.ending.output = some t := by
  obtain ⟨f, _ | _ | (_ | _) | _⟩ := c <;> simp [runOne, ChildEnd.output, eq_comm]

theorem run_mem_runOne {p : Text} {c c' : Child} (h : LaunchStep.run c' ∈ runOne p c) : c' = c := by
  obtain ⟨f, _ | _ | (_ | _) | _⟩ := c <;> simpa [runOne] using h

open Classical in
/-- A file which only one text is ever written to. -/
theorem foldl_written {q : Text} {o : Option Text} : ∀ (steps : List LaunchStep) (file : Text → Option Text),
    (∀ c, LaunchStep.run c ∈ steps → ∀ file, c.effect file q = file q) → (∀ t, LaunchStep.write q t ∈ steps → o = some t) →
    (steps.foldl LaunchStep.apply file) q = if ∃ t, LaunchStep.write q t ∈ steps then o else file q
  | [], file, _, _ => by simp
  | x :: steps, file, h1, h2 => by
    rw [List.foldl_cons, foldl_written steps _ (fun c hc => h1 c (by simp [hc])) (fun t ht => h2 t (by simp [ht]))]
    by_cases hw : ∃ t, LaunchStep.write q t ∈ steps
    · rw [if_pos hw, if_pos (by obtain ⟨t, ht⟩ := hw; exact ⟨t, by simp [ht]⟩)]
    · rw [if_neg hw]
      cases x with
      | run c =>
        rw [if_neg (by rintro ⟨t, ht⟩; exact hw ⟨t, by simpa using ht⟩)]
        exact h1 c (by simp) file
      | write p t =>
        by_cases hp : q = p
        · subst hp
          rw [if_pos ⟨t, by simp⟩, h2 t (by simp)]
          simp [LaunchStep.apply]
        · rw [if_neg (by
            rintro ⟨t', ht⟩
            rcases List.mem_cons.1 ht with h | h
            · exact hp (LaunchStep.write.inj h).1
            · exact hw ⟨t', h⟩)]
          simp [LaunchStep.apply, hp]

variable {instances : List (Text × Child)} {file file' : Text → Option Text}

/-- **C111, part.** In every execution, however the processes interleave: the log of an instance consists of what its process has written, if it ended by itself or, with
some output, by the time limit; otherwise it is what it was before. No other file is changed, except by the processes. Missing: a log for every instance. -/
theorem C111_logs_partial (hn : (instances.map Prod.fst).Nodup) (hc : ∀ x ∈ instances, x.2.Spares ".log".toList) (h : LaunchEnds instances file file') :
    (∀ x ∈ instances, file' (logPath x.1) = match x.2.ending with
      | .completed t => some t
      | .expired (some t) => some t
      | .expired none => file (logPath x.1)
      | .failed => file (logPath x.1)
      | .garbled => file (logPath x.1)) ∧
    ∀ q, (∀ x ∈ instances, q ≠ logPath x.1) → (∀ x ∈ instances, ∀ file, x.2.effect file q = file q) → file' q = file q := by
  obtain ⟨steps, hi, rfl⟩ := h
  have hmem : ∀ s, s ∈ steps ↔ ∃ x ∈ instances, s ∈ runOne x.1 x.2 := by
    intro s
    rw [hi.perm.mem_iff]
    simp only [List.mem_flatten, List.mem_map]
    constructor
    · rintro ⟨l, ⟨x, hx, rfl⟩, hs⟩
      exact ⟨x, hx, hs⟩
    · rintro ⟨x, hx, hs⟩
      exact ⟨_, ⟨x, hx, rfl⟩, hs⟩
  have same : ∀ x ∈ instances, ∀ y ∈ instances, logPath x.1 = logPath y.1 → x = y := by
    intro x hx y hy e
    exact List.inj_on_of_nodup_map hn hx hy (List.append_cancel_right e)
  constructor
  · intro x hx
    have hw : ∀ t, LaunchStep.write (logPath x.1) t ∈ steps ↔ x.2.ending.output = some t := by
      intro t
      rw [hmem]
      constructor
      · rintro ⟨y, hy, hm⟩
        obtain ⟨e, ho⟩ := mem_runOne.1 hm
        rw [same x hx y hy e]
        exact ho
      · intro ho
        exact ⟨x, hx, mem_runOne.2 ⟨rfl, ho⟩⟩
    rw [foldl_written (o := x.2.ending.output) steps file ?_ fun t ht => (hw t).1 ht]
    · have hw' : (∃ t, LaunchStep.write (logPath x.1) t ∈ steps) ↔ ∃ t, x.2.ending.output = some t := exists_congr hw
      rcases e : x.2.ending with t | _ | (_ | t) | _ <;> rw [e] at hw'
      · exact if_pos (hw'.2 ⟨t, rfl⟩)
      · exact if_neg (by rw [hw']; simp [ChildEnd.output])
      · exact if_neg (by rw [hw']; simp [ChildEnd.output])
      · exact if_pos (hw'.2 ⟨t, rfl⟩)
      · exact if_neg (by rw [hw']; simp [ChildEnd.output])
    · intro c hcs f
      obtain ⟨y, hy, hm⟩ := (hmem _).1 hcs
      rw [run_mem_runOne hm]
      exact hc y hy f _ ⟨x.1, rfl⟩
  · intro q hq he
    have hno : ¬ ∃ t, LaunchStep.write q t ∈ steps := by
      rintro ⟨t, ht⟩
      obtain ⟨y, hy, hm⟩ := (hmem _).1 ht
      exact hq y hy (mem_runOne.1 hm).1
    rw [foldl_written (o := none) steps file ?_ fun t ht => absurd ⟨t, ht⟩ hno, if_neg hno]
    intro c hcs f
    obtain ⟨y, hy, hm⟩ := (hmem _).1 hcs
    rw [run_mem_runOne hm]
    exact he y hy f

/-- The full claim: every instance has a log afterwards. -/
def EveryInstanceLogged : Prop :=
  ∀ (instances : List (Text × Child)) (file file' : Text → Option Text), (instances.map Prod.fst).Nodup → (∀ x ∈ instances, x.2.Spares ".log".toList) →
    LaunchEnds instances file file' → ∀ x ∈ instances, file' (logPath x.1) ≠ none

/-- **C111, the claim fails.** There is no log if the process fails, and none if it reaches the time limit without output. -/
theorem C111_claim_fails : ¬ EveryInstanceLogged ∧
    ∃ c : Child, c.ending = .expired none ∧ LaunchEnds [("a.txt".toList, c)] (fun _ => none) fun _ => none := by
  constructor
  · intro h
    refine h [("a.txt".toList, ⟨id, .failed⟩)] (fun _ => none) (fun _ => none) (by decide) ?_ ⟨[.run ⟨id, .failed⟩], ?_, rfl⟩ _ (List.mem_singleton.2 rfl) rfl
    · intro x hx f q _
      simp at hx
      rw [hx]
      rfl
    · exact .step (a := []) (.done (by simp))
  · exact ⟨⟨id, .expired none⟩, rfl, [.run ⟨id, .expired none⟩], .step (a := []) (.done (by simp)), rfl⟩

/-- Two instances solved at the same time, the second one first. -/
example : LaunchEnds [("a".toList, ⟨id, .completed "x".toList⟩), ("b".toList, ⟨id, .expired (some "y".toList)⟩)] (fun _ => none)
    ([.run ⟨id, .completed "x".toList⟩, .run ⟨id, .expired (some "y".toList)⟩, .write "b.log".toList "y".toList, .write "a.log".toList "x".toList].foldl
      LaunchStep.apply fun _ => none) := by
  refine ⟨_, ?_, rfl⟩
  refine .step (a := []) ?_
  refine .step (a := [_]) ?_
  refine .step (a := [_]) ?_
  refine .step (a := []) ?_
  exact .done (by simp)

end Jinete
