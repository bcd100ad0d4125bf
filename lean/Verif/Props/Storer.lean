import Verif.Spec.Storer
import Verif.Proofs.Text
import Verif.Props.Feasible

/-!
# C53, C54, C55, C56, C68: storing results and running the pipeline
-/

set_option autoImplicit false

namespace Jinete

/-! ## C53 -/

theorem cut_ne_nil (c : Char) (t : Text) : cut c t ≠ [] := by
  induction t with
  | nil => simp [cut]
  | cons x t ih =>
    unfold cut
    split
    · simp
    · split <;> simp

theorem cut_of_not_mem {c : Char} {t : Text} (h : c ∉ t) : cut c t = [t] := by
  induction t with
  | nil => rfl
  | cons x t ih =>
    rw [List.mem_cons, not_or] at h
    unfold cut
    rw [if_neg (fun e => h.1 e.symm), ih h.2]

theorem cut_append {c : Char} {p : Text} (h : c ∉ p) (t : Text) : cut c (p ++ c :: t) = p :: cut c t := by
  induction p with
  | nil => simp [cut]
  | cons x p ih =>
    rw [List.mem_cons, not_or] at h
    rw [List.cons_append, cut, if_neg (fun e => h.1 e.symm), ih h.2]

theorem joinWith_cons_cons (c : Char) (p q : Text) (ps : List Text) :
    joinWith c (p :: q :: ps) = p ++ c :: joinWith c (q :: ps) := by
  simp [joinWith, List.intercalate, List.intersperse]

/-- Joining and cutting are inverse when the separator does not occur in the parts. -/
theorem cut_joinWith {c : Char} {ps : List Text} (hne : ps ≠ []) (h : ∀ p ∈ ps, c ∉ p) : cut c (joinWith c ps) = ps := by
  induction ps with
  | nil => exact absurd rfl hne
  | cons p ps ih =>
    cases ps with
    | nil =>
      have : joinWith c [p] = p := by simp [joinWith, List.intercalate, List.intersperse]
      rw [this]
      exact cut_of_not_mem (h p (by simp))
    | cons q ps =>
      rw [joinWith_cons_cons, cut_append (h p (by simp)), ih (by simp) (fun x hx => h x (by simp [hx]))]

theorem mem_joinWith {c x : Char} {ps : List Text} (h : x ∈ joinWith c ps) : x = c ∨ ∃ p ∈ ps, x ∈ p := by
  induction ps with
  | nil => simp [joinWith, List.intercalate] at h
  | cons p ps ih =>
    cases ps with
    | nil =>
      have : joinWith c [p] = p := by simp [joinWith, List.intercalate, List.intersperse]
      rw [this] at h
      exact Or.inr ⟨p, by simp, h⟩
    | cons q ps =>
      rw [joinWith_cons_cons, List.mem_append, List.mem_cons] at h
      rcases h with h | h | h
      · exact Or.inr ⟨p, by simp, h⟩
      · exact Or.inl h
      · rcases ih h with h | ⟨y, hy, h⟩
        · exact Or.inl h
        · exact Or.inr ⟨y, by simp [hy], h⟩

theorem decimal_no_blank (n : Nat) : ' ' ∉ decimal n ∧ '\n' ∉ decimal n :=
  ⟨fun h => by simpa using decimal_isDigit h, fun h => by simpa using decimal_isDigit h⟩

theorem readLine_line (n : Nat) (ids : List Text) (hn : n = ids.length) (h : ∀ t ∈ ids, NoBlanks t) :
    readLine (decimal n ++ ' ' :: joinWith ' ' ids) = (n, ids) := by
  unfold readLine
  rw [cut_append (decimal_no_blank n).1]
  simp only [readNat_decimal, Prod.mk.injEq, true_and]
  cases ids with
  | nil => subst hn; rfl
  | cons a ids =>
    rw [cut_joinWith (by simp) (fun p hp => (h p hp).1), hn, List.take_length]

theorem line_no_break (n : Nat) (ids : List Text) (h : ∀ t ∈ ids, NoBlanks t) :
    '\n' ∉ decimal n ++ ' ' :: joinWith ' ' ids := by
  rw [List.mem_append, List.mem_cons, not_or, not_or]
  refine ⟨(decimal_no_blank n).2, by decide, fun hm => ?_⟩
  rcases mem_joinWith hm with h' | ⟨p, hp, h'⟩
  · exact absurd h' (by decide)
  · exact (h p hp).2 h'

theorem insertLine_perm (x : Text) (l : List Text) : (insertLine x l).Perm (x :: l) := by
  induction l with
  | nil => exact .refl _
  | cons y l ih =>
    unfold insertLine
    split
    · exact .refl _
    · exact (ih.cons y).trans (.swap x y l)

theorem sortLines_perm (l : List Text) : (sortLines l).Perm l := by
  induction l with
  | nil => exact .refl _
  | cons x l ih => exact (insertLine_perm x _).trans (ih.cons x)

theorem textLe_total (a b : Text) : textLe a b = true ∨ textLe b a = true := by
  induction a generalizing b with
  | nil => left; rfl
  | cons x s ih =>
    cases b with
    | nil => right; rfl
    | cons y t =>
      unfold textLe
      rcases Nat.lt_trichotomy x.toNat y.toNat with h | h | h
      · left; simp [h]
      · simp only [h, lt_irrefl, if_false]; exact ih t
      · right; simp [h]

theorem textLe_trans {a b c : Text} (h1 : textLe a b = true) (h2 : textLe b c = true) : textLe a c = true := by
  induction a generalizing b c with
  | nil => rfl
  | cons x s ih =>
    cases b with
    | nil => cases h1
    | cons y t =>
      cases c with
      | nil => cases h2
      | cons z u =>
        unfold textLe at h1 h2 ⊢
        split at h1
        · split at h2
          · rw [if_pos (by omega)]
          · split at h2
            · cases h2
            · rw [if_pos (by omega)]
        · split at h1
          · cases h1
          · split at h2
            · rw [if_pos (by omega)]
            · split at h2
              · cases h2
              · rw [if_neg (by omega), if_neg (by omega)]
                exact ih h1 h2

theorem insertLine_sorted (x : Text) (l : List Text) (h : l.Pairwise fun a b => textLe a b = true) :
    (insertLine x l).Pairwise fun a b => textLe a b = true := by
  induction l with
  | nil => simp [insertLine]
  | cons y l ih =>
    rw [List.pairwise_cons] at h
    unfold insertLine
    split
    · next hxy =>
      refine List.pairwise_cons.2 ⟨?_, List.pairwise_cons.2 h⟩
      intro z hz
      rcases List.mem_cons.1 hz with rfl | hz
      · exact hxy
      · exact textLe_trans hxy (h.1 z hz)
    · next hxy =>
      refine List.pairwise_cons.2 ⟨?_, ih h.2⟩
      intro z hz
      rcases List.mem_cons.1 ((insertLine_perm x l).mem_iff.1 hz) with rfl | hz
      · exact (textLe_total z y).resolve_left hxy
      · exact h.1 z hz

theorem sortLines_sorted (l : List Text) : (sortLines l).Pairwise fun a b => textLe a b = true := by
  induction l with
  | nil => exact .nil
  | cons x l ih => exact insertLine_sorted x _ ih

theorem routeLoadedTrips_spec (E : Env) (c : Core) (r : Nat) :
    routeLoadedTrips E c r = ((itinerary c r).flatMap Visit.picks).filter fun t => (E.trip t).capacity ≠ 0 := by
  unfold routeLoadedTrips routeTrips routePlannedTrips itinerary
  rw [List.map_flatMap, List.flatMap_map]
  apply List.filter_congr
  intro t _
  simp [Trip.empty]

theorem routeLoaded_spec (c : Core) (r : Nat) : routeLoaded c r = servesAny c r := by
  unfold routeLoaded servesAny routePlannedTrips itinerary
  rw [List.flatMap_map, Bool.eq_iff_iff]
  simp only [Bool.not_eq_true', List.isEmpty_eq_false_iff, decide_eq_true_eq, ne_eq, not_iff_not,
    List.flatMap_eq_nil_iff]
  constructor
  · intro h s hs; simp [visitOf, h s hs]
  · intro h s hs; simpa [visitOf] using h s hs

theorem hashcodeLine_read (E : Env) (ident : Nat → Text) (c : Core) (r : Nat) (hid : ∀ t, NoBlanks (ident t)) :
    readLine (hashcodeLine E ident c r) = routeEntry E ident c r ∧ '\n' ∉ hashcodeLine E ident c r := by
  unfold hashcodeLine routeEntry
  rw [routeLoadedTrips_spec]
  refine ⟨?_, ?_⟩
  · exact readLine_line _ _ (by simp) (fun t ht => by obtain ⟨x, _, rfl⟩ := List.mem_map.1 ht; exact hid x)
  · exact line_no_break _ _ (fun t ht => by obtain ⟨x, _, rfl⟩ := List.mem_map.1 ht; exact hid x)

/-- **C53.** Reading back the text written by the HashCode formatter gives, up to order, one entry per stored route:
the number of trips with passengers it serves and their identifiers in pickup order; the stored routes are all
routes, or only those that serve a trip. The lines come in sorted order. -/
theorem C53_output_read_back (E : Env) (ident : Nat → Text) (removeEmpty : Bool) (c : Core) (routes : List Nat)
    (hid : ∀ t, NoBlanks (ident t)) :
    (readOutput (hashcodeFormat E ident removeEmpty c routes)).Perm
      ((if removeEmpty then routes.filter (servesAny c) else routes).map (routeEntry E ident c)) ∧
    (cut '\n' (hashcodeFormat E ident removeEmpty c routes)).Pairwise fun a b => textLe a b = true := by
  unfold hashcodeFormat
  have e0 : (if removeEmpty then routes.filter (routeLoaded c) else routes) =
      (if removeEmpty then routes.filter (servesAny c) else routes) := by
    rw [show routeLoaded c = servesAny c from funext (routeLoaded_spec c)]
  rw [e0]
  generalize (if removeEmpty then routes.filter (servesAny c) else routes) = rs
  have hperm := sortLines_perm (rs.map (hashcodeLine E ident c))
  have hsort := sortLines_sorted (rs.map (hashcodeLine E ident c))
  have hmem : ∀ p ∈ sortLines (rs.map (hashcodeLine E ident c)), ∃ r, p = hashcodeLine E ident c r := by
    intro p hp
    obtain ⟨r, _, rfl⟩ := List.mem_map.1 (hperm.mem_iff.1 hp)
    exact ⟨r, rfl⟩
  rcases hl : sortLines (rs.map (hashcodeLine E ident c)) with _ | ⟨p, ps⟩
  · rw [hl] at hperm
    have : rs = [] := by
      have := hperm.symm.eq_nil
      simpa using this
    subst this
    simp [readOutput, joinWith, List.intercalate, cut]
  · rw [← hl]
    have hcut : cut '\n' (joinWith '\n' (sortLines (rs.map (hashcodeLine E ident c)))) =
        sortLines (rs.map (hashcodeLine E ident c)) := by
      refine cut_joinWith (by rw [hl]; simp) (fun q hq => ?_)
      obtain ⟨r, rfl⟩ := hmem q hq
      exact (hashcodeLine_read E ident c r hid).2
    refine ⟨?_, by rw [hcut]; exact hsort⟩
    unfold readOutput
    rw [if_neg, hcut]
    · refine (hperm.map readLine).trans ?_
      rw [List.map_map, List.map_congr_left (f := readLine ∘ hashcodeLine E ident c) (g := routeEntry E ident c)
        (fun r _ => (hashcodeLine_read E ident c r hid).1)]
    · intro he
      rw [he] at hcut
      have : sortLines (rs.map (hashcodeLine E ident c)) = [[]] := hcut.symm
      obtain ⟨r, hr⟩ := hmem [] (by rw [this]; simp)
      unfold hashcodeLine at hr
      simp at hr

/-- Decimal identifiers contain no blanks, so C53 applies to loaded instances. -/
example (E : Env) (c : Core) (routes : List Nat) :
    (readOutput (hashcodeFormat E decimal true c routes)).Perm
      ((routes.filter (servesAny c)).map (routeEntry E decimal c)) :=
  (C53_output_read_back E decimal true c routes decimal_no_blank).1

/-- The demo planning with an empty route (0) and a route serving both trips (2). -/
example : readOutput (hashcodeFormat demoEnv decimal true demoHeap.core [0, 2]) = [(2, [['0'], ['1']])] ∧
    readOutput (hashcodeFormat demoEnv decimal false demoHeap.core [2, 0]) = [(0, []), (2, [['0'], ['1']])] := by
  decide +kernel

/-! ## C54 -/

variable {σ V : Type}

/-- The full claim C54: if formatting raises, the target file keeps its contents. -/
def FailedStoreKeepsFile (path : Text) (formatted : Py σ Text) (w : World σ) : Prop :=
  ∀ e, (formatted w.data).1 = .error e → (fileStore path formatted w).2.file path = w.file path

/-- C54 is false whenever there is something to lose: a failing formatter leaves an empty file, whatever was in it
before. -/
theorem C54_file_truncated (path : Text) (formatted : Py σ Text) (w : World σ) (e : Err)
    (he : (formatted w.data).1 = .error e) :
    (fileStore path formatted w).1 = .error e ∧ (fileStore path formatted w).2.file path = some [] := by
  unfold fileStore
  rw [Py.modify_bind]
  have : onData formatted { w with file := fun p => if p = path then some [] else w.file p } =
      (.error e, { w with file := fun p => if p = path then some [] else w.file p, data := (formatted w.data).2 }) := by
    unfold onData; rw [he]
  rw [Py.bind_error this]
  simp

theorem C54_failed_store_loses (path : Text) (formatted : Py σ Text) (w : World σ) (e : Err)
    (he : (formatted w.data).1 = .error e) (old : Text) (hold : w.file path = some old) (hne : old ≠ []) :
    ¬ FailedStoreKeepsFile path formatted w := by
  intro h
  have := h e he
  rw [(C54_file_truncated path formatted w e he).2, hold] at this
  exact hne (Option.some.inj this).symm

example : ¬ FailedStoreKeepsFile ['a'] (fun s : Unit => (.error .zeroDivision, s)) ⟨(), fun _ => some ['x'], [], [], []⟩ :=
  C54_failed_store_loses _ _ _ .zeroDivision rfl ['x'] rfl (by simp)

/-- What does hold: other files and the printed lines are never touched; when formatting succeeds the file holds
exactly the formatted text; a failed store keeps a file that was empty. Missing: the contents of a file that was not
empty are lost when formatting raises. -/
theorem C54_failed_store_partial (path : Text) (formatted : Py σ Text) (w : World σ) :
    (∀ p, p ≠ path → (fileStore path formatted w).2.file p = w.file p) ∧
    (fileStore path formatted w).2.printed = w.printed ∧
    (∀ text, (formatted w.data).1 = .ok text →
      (fileStore path formatted w).1 = .ok () ∧ (fileStore path formatted w).2.file path = some text) ∧
    (w.file path = some [] → FailedStoreKeepsFile path formatted w) := by
  have hrun : ∀ text, (formatted w.data).1 = .ok text → fileStore path formatted w =
      (.ok (), { w with file := fun p => if p = path then some text else if p = path then some [] else w.file p,
                        data := (formatted w.data).2 }) := by
    intro text ht
    unfold fileStore
    rw [Py.modify_bind]
    have : onData formatted { w with file := fun p => if p = path then some [] else w.file p } =
        (.ok text, { w with file := fun p => if p = path then some [] else w.file p, data := (formatted w.data).2 }) := by
      unfold onData; rw [ht]
    rw [Py.bind_ok this]
    rfl
  have herr : ∀ e, (formatted w.data).1 = .error e → fileStore path formatted w =
      (.error e, { w with file := fun p => if p = path then some [] else w.file p, data := (formatted w.data).2 }) := by
    intro e he
    unfold fileStore
    rw [Py.modify_bind]
    have : onData formatted { w with file := fun p => if p = path then some [] else w.file p } =
        (.error e, { w with file := fun p => if p = path then some [] else w.file p, data := (formatted w.data).2 }) := by
      unfold onData; rw [he]
    rw [Py.bind_error this]
  refine ⟨?_, ?_, ?_, ?_⟩
  · intro p hp
    rcases hr : (formatted w.data).1 with e | text
    · rw [herr e hr]; simp [hp]
    · rw [hrun text hr]; simp [hp]
  · rcases hr : (formatted w.data).1 with e | text
    · rw [herr e hr]
    · rw [hrun text hr]
  · intro text ht
    rw [hrun text ht]
    simp
  · intro hw e he
    rw [(C54_file_truncated path formatted w e he).2, hw]

/-- Printing does not lose anything: if formatting raises, nothing is printed and no file changes. -/
theorem C54_prompt_keeps (formatted : Py σ Text) (w : World σ) :
    (promptStore formatted w).2.file = w.file ∧
    (∀ e, (formatted w.data).1 = .error e → (promptStore formatted w).1 = .error e ∧ (promptStore formatted w).2.printed = w.printed) ∧
    (∀ text, (formatted w.data).1 = .ok text →
      (promptStore formatted w).1 = .ok () ∧ (promptStore formatted w).2.printed = w.printed ++ [text]) := by
  unfold promptStore
  rcases hr : (formatted w.data).1 with e | text
  · have : onData formatted w = (.error e, { w with data := (formatted w.data).2 }) := by unfold onData; rw [hr]
    rw [Py.bind_error this]
    refine ⟨rfl, fun e' h => ⟨by rw [Except.error.inj h], rfl⟩, fun t h => by cases h⟩
  · have : onData formatted w = (.ok text, { w with data := (formatted w.data).2 }) := by unfold onData; rw [hr]
    rw [Py.bind_ok this]
    refine ⟨rfl, ?_, ?_⟩
    · intro e' h; cases h
    · intro t h
      rw [← Except.ok.inj h]
      exact ⟨rfl, rfl⟩

/-! ## C55 -/

theorem recorded_run {α : Type} (what : Except Err α → Call V) {x : Py σ α} {s s' : σ} {r : Except Err α}
    (h : x s = (r, s')) (log : List (Call V)) : recorded what x (s, log) = (r, (s', log ++ [what r])) := by
  simp [recorded, h]

theorem recordedStorer_ok {cls : Class σ V (StorerObj σ)} {kwargs : Kwargs V} {s s' : σ} {o : StorerObj σ} (i : Nat)
    (h : cls kwargs s = (.ok o, s')) (log : List (Call V)) : recordedStorer i cls kwargs (s, log) =
      (.ok ⟨recorded (fun r => .store i (errorOf r)) o.store⟩, (s', log ++ [.newStorer i kwargs none])) := by
  unfold recordedStorer
  rw [recorded_run _ h]
  rfl

theorem recordedStorer_error {cls : Class σ V (StorerObj σ)} {kwargs : Kwargs V} {s s' : σ} {e : Err} (i : Nat)
    (h : cls kwargs s = (.error e, s')) (log : List (Call V)) : recordedStorer i cls kwargs (s, log) =
      (.error e, (s', log ++ [.newStorer i kwargs (some e)])) := by
  unfold recordedStorer
  rw [recorded_run _ h]
  rfl

theorem storers_run (kwargs : Kwargs V) (classes : List (Class σ V (StorerObj σ))) (i : Nat) (s : σ) (log : List (Call V)) :
    ∃ r s' log', storerSetStore ((classes.zipIdx i).map fun c => recordedStorer c.2 c.1) kwargs (s, log) =
      (r, (s', log ++ log')) ∧ StorersRun kwargs i classes.length r log' ∧ storerSetStore classes kwargs s = (r, s') := by
  induction classes generalizing i s log with
  | nil => exact ⟨.ok (), s, [], by simp [storerSetStore, Py.forEach], .done i, rfl⟩
  | cons cls classes ih =>
    simp only [storerSetStore, List.zipIdx_cons, List.map_cons, Py.forEach]
    rcases h1 : cls kwargs s with ⟨e | o, s1⟩
    · refine ⟨.error e, s1, _, ?_, .newFails i classes.length e, ?_⟩
      · exact Py.bind_error (Py.bind_error (recordedStorer_error i h1 log))
      · exact Py.bind_error (Py.bind_error h1)
    · rcases h2 : o.store s1 with ⟨e | u, s2⟩
      · refine ⟨.error e, s2, [.newStorer i kwargs none, .store i (some e)], ?_, .storeFails i classes.length e, ?_⟩
        · refine Py.bind_error ?_
          rw [Py.bind_ok (recordedStorer_ok i h1 log)]
          simp only [recorded_run _ h2, List.append_assoc, List.singleton_append]
          rfl
        · refine Py.bind_error ?_
          rw [Py.bind_ok h1, h2]
      · obtain ⟨r, s', log', h3, h4, h5⟩ := ih (i + 1) s2 (log ++ [.newStorer i kwargs none, .store i none])
        refine ⟨r, s', .newStorer i kwargs none :: .store i none :: log', ?_, .next h4, ?_⟩
        · rw [Py.bind_ok (s' := (s2, log ++ [.newStorer i kwargs none, .store i none])) (a := ())]
          · simp only [storerSetStore] at h3
            rw [h3]
            simp
          · rw [Py.bind_ok (recordedStorer_ok i h1 log)]
            simp only [recorded_run _ h2, List.append_assoc, List.singleton_append]
            rfl
        · rw [Py.bind_ok (s' := s2) (a := ())]
          · exact h5
          · rw [Py.bind_ok h1, h2]

/-- **C55.** A storer set constructs and runs its storers one after the other, each once, all with the same
arguments (so all with the same result); if constructing or storing fails it stops there with that error and the
later ones are not touched; if nothing fails all of them have been run. (The run with recorded calls ends like the
run without.) -/
theorem C55_each_storer_once (kwargs : Kwargs V) (classes : List (Class σ V (StorerObj σ))) (s : σ) :
    ∃ r s' log, storerSetStore ((classes.zipIdx).map fun c => recordedStorer c.2 c.1) kwargs (s, []) = (r, (s', log)) ∧
      StorersRun kwargs 0 classes.length r log ∧ storerSetStore classes kwargs s = (r, s') := by
  obtain ⟨r, s', log, h, h'⟩ := storers_run kwargs classes 0 s []
  exact ⟨r, s', log, by simpa using h, h'⟩

/-- Three storers, the second of which fails to store: the third is not constructed. -/
example :
    let good : Class Nat Unit (StorerObj Nat) := fun _ n => (.ok ⟨fun n => (.ok (), n + 1)⟩, n + 10)
    let bad : Class Nat Unit (StorerObj Nat) := fun _ n => (.ok ⟨fun n => (.error .runtime, n)⟩, n + 10)
    storerSetStore [good, bad, good] [] 0 = (.error .runtime, 21) ∧
    StorersRun (V := Unit) [] 0 3 (.error .runtime)
      [.newStorer 0 [] none, .store 0 none, .newStorer 1 [] none, .store 1 (some .runtime)] :=
  ⟨rfl, .next (.storeFails 1 1 .runtime)⟩

/-! ## C56 -/

theorem recordedLoader_ok {cls : Class σ V (LoaderObj σ V)} {kwargs : Kwargs V} {s s' : σ} {o : LoaderObj σ V}
    (h : cls kwargs s = (.ok o, s')) (log : List (Call V)) : recordedLoader cls kwargs (s, log) =
      (.ok ⟨recorded .job o.job, recorded .fleet o.fleet⟩, (s', log ++ [.newLoader kwargs none])) := by
  unfold recordedLoader
  rw [recorded_run _ h]
  rfl

theorem recordedLoader_error {cls : Class σ V (LoaderObj σ V)} {kwargs : Kwargs V} {s s' : σ} {e : Err}
    (h : cls kwargs s = (.error e, s')) (log : List (Call V)) : recordedLoader cls kwargs (s, log) =
      (.error e, (s', log ++ [.newLoader kwargs (some e)])) := by
  unfold recordedLoader
  rw [recorded_run _ h]
  rfl

theorem recordedAlgorithm_ok {cls : Class σ V (AlgorithmObj σ V)} {kwargs : Kwargs V} {s s' : σ} {o : AlgorithmObj σ V}
    (h : cls kwargs s = (.ok o, s')) (log : List (Call V)) : recordedAlgorithm cls kwargs (s, log) =
      (.ok ⟨recorded .optimize o.optimize⟩, (s', log ++ [.newAlgorithm kwargs none])) := by
  unfold recordedAlgorithm
  rw [recorded_run _ h]
  rfl

theorem recordedAlgorithm_error {cls : Class σ V (AlgorithmObj σ V)} {kwargs : Kwargs V} {s s' : σ} {e : Err}
    (h : cls kwargs s = (.error e, s')) (log : List (Call V)) : recordedAlgorithm cls kwargs (s, log) =
      (.error e, (s', log ++ [.newAlgorithm kwargs (some e)])) := by
  unfold recordedAlgorithm
  rw [recorded_run _ h]
  rfl

theorem tuned_ok {O : Type} (base : Class σ V O) {kwargs call : Kwargs V} (h : ((call ++ kwargs).map Prod.fst).Nodup) :
    tuned base kwargs call = base (call ++ kwargs) := by
  unfold tuned; rw [if_pos (by simpa using h)]

theorem tuned_clash {O : Type} (base : Class σ V O) {kwargs call : Kwargs V} (h : ¬ ((call ++ kwargs).map Prod.fst).Nodup) :
    tuned base kwargs call = Py.raise .typeError := by
  unfold tuned; rw [if_neg (by simpa using h)]

/-- **C56.** However loader, algorithm and storer behave, `Solver.solve` without dispatcher arguments makes exactly the
calls of `PipelineRun`: each component is constructed with its configured arguments, the algorithm in addition with
the fleet and the job the loader returned, the storer with the result the algorithm returned, which is also what
`solve` returns; the first failure ends the run. (The run with recorded calls ends like the run without.) -/
theorem C56_pipeline (S : Solver σ V) (hd : S.dispatcherKwargs = []) (hl : (S.loaderKwargs.map Prod.fst).Nodup) (s : σ) :
    ∃ r s' log, S.recorded.solve (s, []) = (r, (s', log)) ∧
      PipelineRun S.loaderKwargs S.algorithmKwargs S.storerKwargs r log ∧ S.solve s = (r, s') := by
  unfold Solver.solve Solver.recorded
  simp only [hd, List.isEmpty_nil, if_true]
  unfold staticRun
  rw [tuned_ok (call := []) (kwargs := S.loaderKwargs) (recordedLoader S.loader) (by simpa using hl),
    tuned_ok (call := []) (kwargs := S.loaderKwargs) S.loader (by simpa using hl)]
  simp only [List.nil_append]
  rcases h1 : S.loader S.loaderKwargs s with ⟨e | l, s1⟩
  · exact ⟨_, _, _, Py.bind_error (recordedLoader_error h1 []), .loaderFails e, Py.bind_error h1⟩
  simp only [Py.bind_ok (recordedLoader_ok h1 []), Py.bind_ok h1]
  rcases h2 : l.job s1 with ⟨e | j, s2⟩
  · exact ⟨_, _, _, Py.bind_error (recorded_run _ h2 _), .jobFails e, Py.bind_error h2⟩
  simp only [Py.bind_ok (recorded_run _ h2 _), Py.bind_ok h2]
  rcases h3 : l.fleet s2 with ⟨e | f, s3⟩
  · exact ⟨_, _, _, Py.bind_error (recorded_run _ h3 _), .fleetFails j e, Py.bind_error h3⟩
  simp only [Py.bind_ok (recorded_run _ h3 _), Py.bind_ok h3]
  by_cases hn : (([("fleet", f), ("job", j)] ++ S.algorithmKwargs).map Prod.fst).Nodup
  swap
  · rw [tuned_clash _ hn, tuned_clash _ hn]
    exact ⟨_, _, _, rfl, .algorithmClash j f hn, rfl⟩
  rw [tuned_ok _ hn, tuned_ok _ hn]
  rcases h4 : S.algorithm ([("fleet", f), ("job", j)] ++ S.algorithmKwargs) s3 with ⟨e | a, s4⟩
  · exact ⟨_, _, _, Py.bind_error (recordedAlgorithm_error h4 _), .algorithmFails j f e, Py.bind_error h4⟩
  simp only [Py.bind_ok (recordedAlgorithm_ok h4 _), Py.bind_ok h4]
  rcases h5 : a.optimize s4 with ⟨e | r, s5⟩
  · exact ⟨_, _, _, Py.bind_error (recorded_run _ h5 _), .optimizeFails j f e, Py.bind_error h5⟩
  simp only [Py.bind_ok (recorded_run _ h5 _), Py.bind_ok h5]
  by_cases hm : (([("result", r)] ++ S.storerKwargs).map Prod.fst).Nodup
  swap
  · rw [tuned_clash _ hm, tuned_clash _ hm]
    exact ⟨_, _, _, rfl, .storerClash j f r hm, rfl⟩
  rw [tuned_ok _ hm, tuned_ok _ hm]
  rcases h6 : S.storer ([("result", r)] ++ S.storerKwargs) s5 with ⟨e | o, s6⟩
  · exact ⟨_, _, _, Py.bind_error (recordedStorer_error 0 h6 _), .storerFails j f r e, Py.bind_error h6⟩
  simp only [Py.bind_ok (recordedStorer_ok 0 h6 _), Py.bind_ok h6]
  rcases h7 : o.store s6 with ⟨e | u, s7⟩
  · exact ⟨_, _, _, Py.bind_error (recorded_run _ h7 _), .storeFails j f r e, Py.bind_error h7⟩
  simp only [Py.bind_ok (recorded_run _ h7 _), Py.bind_ok h7]
  exact ⟨_, _, _, rfl, .done j f r, rfl⟩

/-- **C56, dispatcher arguments.** Any `dispatcher_kwargs` makes `solve` raise before anything is called. -/
theorem C56_dispatcher_arguments_rejected (S : Solver σ V) (hd : S.dispatcherKwargs ≠ []) (s : σ) :
    S.solve s = (.error .typeError, s) := by
  unfold Solver.solve
  rw [if_neg (by simpa using hd)]
  rfl

/-- A solver with a constant loader, an algorithm that adds fleet and job and a storer that remembers the result. -/
def demoSolver : Solver (List Nat) Nat where
  loader _ := pure ⟨pure 3, pure 4⟩
  loaderKwargs := [("file_path", 0)]
  algorithm kwargs := pure ⟨pure (kwargs.map Prod.snd).sum⟩
  algorithmKwargs := [("seed", 5)]
  storer kwargs := pure ⟨Py.modify fun l => l ++ kwargs.map Prod.snd⟩
  storerKwargs := []
  dispatcherKwargs := []

example : demoSolver.solve [] = (.ok 12, [12]) ∧ demoSolver.dispatcherKwargs = [] ∧
    (demoSolver.loaderKwargs.map Prod.fst).Nodup := by
  refine ⟨rfl, rfl, by decide⟩

/-! ## C68 -/

/-- The full claim C68: a set that was constructed can construct its member of type `FileStorer` when a file path is
among the arguments of the set. -/
def SetAcceptsFileStorer (kwargs : Kwargs V) : Prop :=
  "file_path" ∈ kwargs.map Prod.fst → ∀ (s : σ), ∃ rest, storerSetInit kwargs s = (.ok rest, s) ∧
    fileStorerInit rest s = (.ok (), s)

/-- C68 is false for all arguments: `StorerSet` hands its arguments to `Storer.__init__`, which knows no `file_path`. -/
theorem C68_set_rejects_file_path (kwargs : Kwargs V) (h : "file_path" ∈ kwargs.map Prod.fst) (s : σ) :
    storerSetInit kwargs s = (.error .typeError, s) := by
  unfold storerSetInit
  split
  · have : callOK ["result"] ["formatter_cls"] (kwargs.filter fun p => p.1 ≠ "storer_cls_set") = false := by
      unfold callOK
      obtain ⟨p, hp, he⟩ := List.mem_map.1 h
      rw [Bool.and_eq_false_iff, Bool.and_eq_false_iff]
      left; right
      rw [List.all_eq_false]
      refine ⟨"file_path", List.mem_map.2 ⟨p, List.mem_filter.2 ⟨hp, ?_⟩, he⟩, by decide⟩
      rw [he]; decide
    unfold storerInit
    rw [this]
    rfl
  · rfl

/-- Nor can the path be left out: then the `FileStorer` in the set cannot be constructed. -/
theorem C68_file_storer_not_constructed (kwargs rest : Kwargs V) (s s' : σ) (h : storerSetInit kwargs s = (.ok rest, s')) :
    fileStorerInit rest s' = (.error .typeError, s') := by
  by_cases hf : "file_path" ∈ kwargs.map Prod.fst
  · rw [C68_set_rejects_file_path kwargs hf s] at h
    cases h
  · unfold storerSetInit at h
    split at h
    · obtain ⟨_, s1, _, h2⟩ : ∃ (a : Unit) (s1 : σ), storerInit (kwargs.filter fun p => p.1 ≠ "storer_cls_set") s = (.ok a, s1) ∧
          (Except.ok (kwargs.filter fun p => p.1 ≠ "storer_cls_set"), s1) = ((Except.ok rest : Except Err _), s') := by
        unfold storerInit at h ⊢
        split at h
        · next hc => rw [if_pos hc]; exact ⟨(), s, rfl, h⟩
        · cases h
      simp only [Prod.mk.injEq, Except.ok.injEq] at h2
      unfold fileStorerInit
      rw [if_neg]
      · rfl
      · intro hm
        rw [← h2.1] at hm
        obtain ⟨p, hp, he⟩ := List.mem_map.1 hm
        exact hf (List.mem_map.2 ⟨p, (List.mem_filter.1 hp).1, he⟩)
    · cases h

theorem C68_claim_fails (kwargs : Kwargs V) (h : "file_path" ∈ kwargs.map Prod.fst) (s : σ) :
    ¬ SetAcceptsFileStorer (σ := σ) kwargs := by
  intro hc
  obtain ⟨rest, h1, _⟩ := hc h s
  rw [C68_set_rejects_file_path kwargs h s] at h1
  cases h1

/-- What does hold: storers that need nothing but the result and a formatter can be combined; a set constructed from a
result, a formatter class or none and the classes can construct each of them. Missing: storers with arguments of their
own. -/
theorem C68_storers_combine_partial (kwargs rest : Kwargs V) (s s' : σ) (h : storerSetInit kwargs s = (.ok rest, s')) :
    storerInit rest s' = (.ok (), s') ∧ ∃ v, ("result", v) ∈ rest := by
  unfold storerSetInit at h
  split at h
  · unfold storerInit at h
    split at h
    · next hc =>
      have h' : (Except.ok (kwargs.filter fun p => p.1 ≠ "storer_cls_set"), s) = ((Except.ok rest : Except Err _), s') := h
      simp only [Prod.mk.injEq, Except.ok.injEq] at h'
      rw [h'.1] at hc
      refine ⟨by unfold storerInit; rw [if_pos hc]; rfl, ?_⟩
      unfold callOK at hc
      simp only [Bool.and_eq_true, List.all_cons, List.all_nil, decide_eq_true_eq] at hc
      obtain ⟨p, hp, he⟩ := List.mem_map.1 hc.1.1.1
      exact ⟨p.2, by rw [← he]; exact hp⟩
    · cases h
  · cases h

example : storerSetInit (σ := Unit) [("result", 1), ("storer_cls_set", 2)] () = (.ok [("result", 1)], ()) ∧
    storerSetInit (σ := Unit) [("result", 1), ("storer_cls_set", 2), ("file_path", 3)] () = (.error .typeError, ()) := by
  exact ⟨rfl, rfl⟩

end Jinete
