import Verif.Proofs.File
import Verif.Props.Loader
import Verif.Props.Storer

/-!
# C84: the text of a file and the numbers read from it
-/

set_option autoImplicit false

namespace Jinete

variable {D : Type}

/-- **C84, numbers.** A word is read as a number exactly if it is written as one (sign, digits with single underscores in
between, point, power of ten), and the value is the one it denotes. -/
theorem C84_number_read (t : Text) (q : ℚ) : pyFloat t = some q ↔ NumberText t q := pyFloat_iff

/-- **C84.** Reading a file gives the rows of numbers of which its text consists, whatever white space, line ends and
notations are used; a text that does not consist of rows of numbers raises `ValueError`. -/
theorem C84_file_read (text : Text) :
    (∀ rows, fileData text = .ok rows ↔ FileText text rows) ∧
    ((∀ rows, ¬ FileText text rows) → fileData text = .error .valueError) := by
  refine ⟨fun rows => fileData_iff, fun h => ?_⟩
  rcases e : fileData text with er | rows
  · unfold fileData at e
    split at e
    · cases e
    · cases e; rfl
  · exact (h rows (fileData_iff.1 e)).elim

/-- **C84, no ambiguity.** A text consists of rows of numbers in at most one way. -/
theorem C84_rows_unique {text : Text} {rows rows' : Rows} (h : FileText text rows) (h' : FileText text rows') : rows = rows' := by
  have := (fileData_iff.2 h).symm.trans (fileData_iff.2 h')
  cases this
  rfl

theorem loaderJob_text (F : LoaderFormatter D) {text : Text} {rows : Rows} (h : fileData text = .ok rows) :
    loaderJob F (LoaderState.ofText text) =
      match F.job rows (SurfaceState.new []) with
      | (.ok job, sf) => (.ok job, { content := .ok rows, reads := 1, formatter := some rows, surface := some sf, job := some job })
      | (.error e, sf) => (.error e, { content := .ok rows, reads := 1, formatter := some rows, surface := some sf }) := by
  unfold LoaderState.ofText
  rw [h]
  have e : loaderJob F ({ content := Except.ok rows } : LoaderState D) = (onSurface (F.job rows) >>= fun job =>
      Py.modify (fun s => { s with job := some job }) >>= fun _ => pure job)
      { content := .ok rows, reads := 1, formatter := some rows, surface := some (SurfaceState.new []) } := rfl
  rw [e, Py.bind_run]
  simp only [onSurface]
  rcases F.job rows (SurfaceState.new []) with ⟨_ | _, _⟩ <;> rfl

theorem loaderFleet_text (F : LoaderFormatter D) {rows : Rows} {sf : SurfaceState D} {job : List LoadedTrip} :
    loaderFleet F { content := .ok rows, reads := 1, formatter := some rows, surface := some sf, job := some job } =
      match F.fleet rows sf with
      | (.ok fleet, sf') => (.ok fleet, { content := .ok rows, reads := 1, formatter := some rows, surface := some sf', job := some job, fleet := some fleet })
      | (.error e, sf') => (.error e, { content := .ok rows, reads := 1, formatter := some rows, surface := some sf', job := some job }) := by
  have e : loaderFleet F ({ content := .ok rows, reads := 1, formatter := some rows, surface := some sf, job := some job } : LoaderState D) =
      (onSurface (F.fleet rows) >>= fun v => Py.modify (fun s => { s with fleet := some v }) >>= fun _ => pure v)
      { content := .ok rows, reads := 1, formatter := some rows, surface := some sf, job := some job } := rfl
  rw [e, Py.bind_run]
  simp only [onSurface]
  rcases F.fleet rows sf with ⟨_ | _, _⟩ <;> rfl

/-- **C84, instances.** Loading a file, first the job, then the fleet, as the dispatcher does: if its text consists of
rows of numbers, the formatter is given these rows, and the fleet is made on the surface of the job; otherwise loading
raises `ValueError`. -/
theorem C84_instance_loaded (F : LoaderFormatter D) (text : Text) :
    (∀ rows job fleet sf sf', FileText text rows → F.job rows (SurfaceState.new []) = (.ok job, sf) → F.fleet rows sf = (.ok fleet, sf') →
      ∃ s s', loaderJob F (LoaderState.ofText text) = (.ok job, s) ∧ loaderFleet F s = (.ok fleet, s') ∧ s'.surface = some sf' ∧ s'.reads = 1) ∧
    ((∀ rows, ¬ FileText text rows) → (loaderJob F (LoaderState.ofText text)).1 = .error .valueError) := by
  constructor
  · intro rows job fleet sf sf' h hj hf
    refine ⟨{ content := .ok rows, reads := 1, formatter := some rows, surface := some sf, job := some job },
      { content := .ok rows, reads := 1, formatter := some rows, surface := some sf', job := some job, fleet := some fleet }, ?_, ?_, rfl, rfl⟩
    · rw [loaderJob_text F (fileData_iff.2 h), hj]
    · rw [loaderFleet_text, hf]
  · intro h
    have e := (C84_file_read text).2 h
    unfold LoaderState.ofText
    rw [e]
    rfl

/-! ## Files with natural numbers -/

/-- Rows of natural numbers, one row per line, single blanks between the numbers. -/
def plainText (rows : List (List Nat)) : Text := rows.flatMap fun row => [' '].intercalate (row.map decimal) ++ ['\n']

theorem digitChar_eq {d : Nat} (hd : d < 10) : Char.ofNat (48 + d) = digitChar d := by
  have : ∀ d < 10, Char.ofNat (48 + d) = digitChar d := by decide
  exact this d hd

theorem digitText_map : ∀ (ds : List Nat), ds ≠ [] → (∀ d ∈ ds, d < 10) → DigitText (ds.map fun d => Char.ofNat (48 + d)) ds
  | [], h, _ => (h rfl).elim
  | [d], _, h => by
    rw [List.map_singleton, digitChar_eq (h d (by simp))]
    exact .one d (h d (by simp))
  | d :: e :: ds, _, h => by
    rw [List.map_cons, digitChar_eq (h d (by simp))]
    exact .next d (h d (by simp)) (digitText_map (e :: ds) (by simp) fun x hx => h x (by simp [hx]))

theorem numberText_decimal (n : Nat) : NumberText (decimal n) n := by
  have hd : ∃ ds, DigitText (decimal n) ds ∧ numberOf ds = n := by
    unfold decimal
    split
    · next h => subst h; exact ⟨[0], .one 0 (by norm_num), rfl⟩
    · next h =>
      refine ⟨(Nat.digits 10 n).reverse, digitText_map _ (by simpa [Nat.digits_eq_nil_iff_eq_zero] using h) fun d hd =>
        Nat.digits_lt_base (by norm_num) (List.mem_reverse.1 hd), ?_⟩
      rw [numberOf, List.reverse_reverse, Nat.ofDigits_digits]
  obtain ⟨ds, h1, h2⟩ := hd
  exact ⟨[], 1, decimal n, n, [], 0, by simp, .none, by have := MantissaText.int h1; rwa [h2] at this, .none, by simp⟩

theorem decimal_not_white {n : Nat} {c : Char} (hc : c ∈ decimal n) : ¬ WhiteSpace c := by
  obtain ⟨h1, h2⟩ := digitChar_of_isDigit (decimal_isDigit hc)
  rw [h2]
  generalize c.toNat - 48 = d at h1
  unfold WhiteSpace
  have : ∀ d < 10, (digitChar d).toNat ∉ [0x09, 0x0A, 0x0B, 0x0C, 0x0D, 0x1C, 0x1D, 0x1E, 0x1F, 0x20, 0x85, 0xA0, 0x1680, 0x2000, 0x2001, 0x2002, 0x2003,
    0x2004, 0x2005, 0x2006, 0x2007, 0x2008, 0x2009, 0x200A, 0x2028, 0x2029, 0x202F, 0x205F, 0x3000] := by decide
  exact this d h1

theorem WordsOf.blank {c : Char} {t : Text} {ws : List Text} (h : WordsOf t ws) (hc : WhiteSpace c) : WordsOf (c :: t) ws := by
  cases h with
  | nil hb =>
    refine .nil fun x hx => ?_
    rcases List.mem_cons.1 hx with rfl | hx
    · exact hc
    · exact hb x hx
  | @cons b w t ws hb hne hw ht hrec =>
    refine WordsOf.cons (b := c :: b) (w := w) (t := t) (fun x hx => ?_) hne hw ht hrec
    rcases List.mem_cons.1 hx with rfl | hx
    · exact hc
    · exact hb x hx

theorem wordsOf_row : ∀ row : List Nat, WordsOf ([' '].intercalate (row.map decimal)) (row.map decimal)
  | [] => .nil (by simp [List.intercalate])
  | [n] => by
    have := WordsOf.cons (b := []) (w := decimal n) (t := []) (ws := []) (by simp) (decimal_ne_nil n) (fun c hc => decimal_not_white hc) (.inl rfl) (.nil (by simp))
    simpa [List.intercalate] using this
  | n :: m :: row => by
    have hw : WhiteSpace ' ' := by unfold WhiteSpace; decide
    have h := wordsOf_row (m :: row)
    have h' := h.blank hw
    have := WordsOf.cons (b := []) (w := decimal n) (by simp) (decimal_ne_nil n) (fun c hc => decimal_not_white hc) (.inr ⟨_, _, rfl, hw⟩) h'
    have e : [' '].intercalate ((n :: m :: row).map decimal) = [] ++ decimal n ++ ' ' :: [' '].intercalate ((m :: row).map decimal) := by
      simp [List.intercalate]
    rw [e]
    exact this

/-- **C84, written and read.** Rows of natural numbers written line by line are read back. -/
theorem C84_plain_rows (rows : List (List Nat)) : fileData (plainText rows) = .ok (rows.map fun row => row.map (Nat.cast : Nat → ℚ)) := by
  rw [fileData_iff]
  refine ⟨rows.map fun row => [' '].intercalate (row.map decimal), ?_, ?_⟩
  · induction rows with
    | nil => exact .empty
    | cons row rows ih =>
      rw [plainText, List.flatMap_cons, List.map_cons]
      refine .line ⟨fun h => ?_, fun h => ?_⟩ (.inl rfl) ih
      all_goals
        have hm : ∀ c ∈ [' '].intercalate (row.map decimal), c = ' ' ∨ c.isDigit = true := by
          intro c hc
          rcases mem_joinWith hc with h | ⟨p, hp, h⟩
          · exact .inl h
          · obtain ⟨n, _, rfl⟩ := List.mem_map.1 hp
            exact .inr (decimal_isDigit h)
        rcases hm _ h with h | h <;> revert h <;> decide
  · rw [List.forall₂_map_left_iff, List.forall₂_map_right_iff, List.forall₂_same]
    intro row _
    refine ⟨_, wordsOf_row row, ?_⟩
    rw [List.forall₂_map_left_iff, List.forall₂_map_right_iff, List.forall₂_same]
    exact fun n _ => numberText_decimal n

/-! ## Cases -/

/-- The HashCode example of the loader, as a file. -/
example : fileData "3 4 2 2 2 10\n0 1 1 3 2 3\n0 0 4 0 0 9\n".toList = .ok demoHashCode := by
  have := C84_plain_rows [[3, 4, 2, 2, 2, 10], [0, 1, 1, 3, 2, 3], [0, 0, 4, 0, 0, 9]]
  exact this

/-- Tabulators, Windows line ends, signs, fractions and exponents; no end of the last line. -/
example : fileData " 1\t+2.50 \r\n\r\n-.5e1 1_000.".toList = .ok [[1, 5 / 2], [], [-5, 1000]] := by decide +kernel

/-- Not a number. -/
example : fileData "1 2\nx".toList = .error .valueError := by decide +kernel

end Jinete
