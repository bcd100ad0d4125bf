import Verif.Model.File
import Verif.Spec.File
import Verif.Proofs.Text
import Mathlib.Tactic.IntervalCases
import Mathlib.Tactic.FieldSimp
import Mathlib.Tactic.Ring
import Mathlib.Tactic.Push

/-!
# Reading the text of a file
-/

set_option autoImplicit false

namespace Jinete

/-! ## Digits -/

theorem digitChar_spec {d : Nat} (hd : d < 10) : (digitChar d).isDigit = true ∧ (digitChar d).toNat - 48 = d := by
  have : ∀ d < 10, (digitChar d).isDigit = true ∧ (digitChar d).toNat - 48 = d := by decide
  exact this d hd

theorem digitChar_of_isDigit {c : Char} (h : c.isDigit = true) : c.toNat - 48 < 10 ∧ c = digitChar (c.toNat - 48) := by
  have h1 : 48 ≤ c.toNat ∧ c.toNat ≤ 57 := by
    simp only [Char.isDigit, Bool.and_eq_true, decide_eq_true_eq] at h
    exact ⟨by have := UInt32.le_iff_toNat_le.1 h.1; simpa using this, by have := UInt32.le_iff_toNat_le.1 h.2; simpa using this⟩
  refine ⟨by omega, ?_⟩
  have h2 : c = Char.ofNat c.toNat := (Char.ofNat_toNat c).symm
  generalize c.toNat = n at h1 h2
  obtain ⟨h1, h3⟩ := h1
  subst h2
  interval_cases n <;> rfl

/-- The text does not continue a group of digits. -/
def Stops (r : Text) : Prop :=
  ∀ c t, r = c :: t → c.isDigit = false ∧ (c = '_' → ∀ d u, t = d :: u → d.isDigit = false)

theorem moreDigits_of_stops {r : Text} (h : Stops r) : moreDigits r = ([], r) := by
  rcases r with _ | ⟨c, t⟩
  · rfl
  · obtain ⟨h1, h2⟩ := h c t rfl
    unfold moreDigits
    rw [if_neg (by simp [h1])]
    split_ifs with hu
    · rcases t with _ | ⟨d, u⟩
      · rfl
      · simp [h2 hu d u rfl]
    · rfl

theorem moreDigits_cons {c : Char} {t : Text} (h : c.isDigit = true) :
    moreDigits (c :: t) = ((c.toNat - 48) :: (moreDigits t).1, (moreDigits t).2) := by
  conv_lhs => unfold moreDigits
  rw [if_pos h]

theorem moreDigits_sep {d : Char} {u : Text} (h : d.isDigit = true) :
    moreDigits ('_' :: d :: u) = ((d.toNat - 48) :: (moreDigits u).1, (moreDigits u).2) := by
  conv_lhs => unfold moreDigits
  rw [if_neg (by decide), if_pos rfl]
  simp [h]

theorem DigitText.head {t : Text} {ds : List Nat} (h : DigitText t ds) : ∃ c u, t = c :: u ∧ c.isDigit = true := by
  cases h with
  | one d hd => exact ⟨_, _, rfl, (digitChar_spec hd).1⟩
  | next d hd _ => exact ⟨_, _, rfl, (digitChar_spec hd).1⟩
  | sep d hd _ => exact ⟨_, _, rfl, (digitChar_spec hd).1⟩

theorem DigitText.more {t : Text} {ds : List Nat} (h : DigitText t ds) {r : Text} (hr : Stops r) : moreDigits (t ++ r) = (ds, r) := by
  induction h with
  | one d hd =>
    obtain ⟨h1, h2⟩ := digitChar_spec hd
    rw [List.singleton_append, moreDigits_cons h1, moreDigits_of_stops hr, h2]
  | next d hd _ ih =>
    obtain ⟨h1, h2⟩ := digitChar_spec hd
    rw [List.cons_append, moreDigits_cons h1, ih, h2]
  | @sep d t ds hd h ih =>
    obtain ⟨h1, h2⟩ := digitChar_spec hd
    obtain ⟨c, u, rfl, hc⟩ := h.head
    rw [List.cons_append, moreDigits_cons h1, h2, List.cons_append, List.cons_append, moreDigits_sep hc]
    rw [List.cons_append, moreDigits_cons hc] at ih
    rw [ih]

theorem DigitText.group {t : Text} {ds : List Nat} (h : DigitText t ds) {r : Text} (hr : Stops r) : digitGroup (t ++ r) = some (ds, r) := by
  obtain ⟨c, u, rfl, hc⟩ := h.head
  have := h.more hr
  rw [List.cons_append, moreDigits_cons hc] at this
  rw [List.cons_append]
  show (if c.isDigit = true then some ((c.toNat - 48) :: (moreDigits (u ++ r)).1, (moreDigits (u ++ r)).2) else none) = _
  rw [if_pos hc, this]

/-- What `moreDigits` reads after a digit is a group of digits. -/
theorem moreDigits_sound : ∀ (t : Text) (c : Char), c.isDigit = true →
    ∃ u, c :: t = u ++ (moreDigits t).2 ∧ DigitText u ((c.toNat - 48) :: (moreDigits t).1)
  | [], c, hc => ⟨[c], by simp [moreDigits], by
      obtain ⟨h1, h2⟩ := digitChar_of_isDigit hc
      have := DigitText.one (c.toNat - 48) h1
      rw [← h2] at this
      exact this⟩
  | e :: t, c, hc => by
    obtain ⟨h1, h2⟩ := digitChar_of_isDigit hc
    by_cases he : e.isDigit = true
    · obtain ⟨u, hu1, hu2⟩ := moreDigits_sound t e he
      rw [moreDigits_cons he]
      refine ⟨c :: u, by rw [List.cons_append, hu1], ?_⟩
      have := DigitText.next _ h1 hu2
      rw [← h2] at this
      exact this
    · by_cases hu : e = '_' ∧ ∃ d u, t = d :: u ∧ d.isDigit = true
      · obtain ⟨rfl, d, u, rfl, hd⟩ := hu
        obtain ⟨w, hw1, hw2⟩ := moreDigits_sound u d hd
        rw [moreDigits_sep hd]
        refine ⟨c :: '_' :: w, by rw [List.cons_append, List.cons_append, hw1], ?_⟩
        have := DigitText.sep _ h1 hw2
        rw [← h2] at this
        exact this
      · have hs : Stops (e :: t) := by
          rintro e' t' ⟨⟩
          refine ⟨by simpa using he, fun h' d u ht => ?_⟩
          by_contra hd
          exact hu ⟨h', d, u, ht, by simpa using hd⟩
        rw [moreDigits_of_stops hs]
        refine ⟨[c], rfl, ?_⟩
        have := DigitText.one (c.toNat - 48) h1
        rw [← h2] at this
        exact this
termination_by t => t.length

theorem digitGroup_sound {t r : Text} {ds : List Nat} (h : digitGroup t = some (ds, r)) : ∃ u, t = u ++ r ∧ DigitText u ds := by
  rcases t with _ | ⟨c, t⟩
  · cases h
  · change (if c.isDigit = true then some ((c.toNat - 48) :: (moreDigits t).1, (moreDigits t).2) else none) = _ at h
    split_ifs at h with hc
    simp only [Option.some.injEq, Prod.mk.injEq] at h
    obtain ⟨u, h1, h2⟩ := moreDigits_sound t c hc
    rw [h.2] at h1
    rw [h.1] at h2
    exact ⟨u, h1, h2⟩

theorem digitGroup_none {c : Char} {t : Text} (h : c.isDigit = false) : digitGroup (c :: t) = none := by
  show (if c.isDigit = true then some ((c.toNat - 48) :: (moreDigits t).1, (moreDigits t).2) else none) = _
  rw [if_neg (by simp [h])]

theorem horner_append (l : List Nat) (a : Nat) : l.foldl (fun a d => 10 * a + d) a = a * 10 ^ l.length + numberOf l := by
  induction l generalizing a with
  | nil => simp [numberOf]
  | cons d l ih =>
    rw [List.foldl_cons, ih]
    simp only [numberOf, List.reverse_cons, List.length_cons, Nat.ofDigits_append, Nat.ofDigits_singleton, List.length_reverse]
    ring

theorem horner (l : List Nat) : l.foldl (fun a d => 10 * a + d) 0 = numberOf l := by
  rw [horner_append]; simp

/-! ## Signs, points and exponents -/

theorem signOf_sound (t : Text) : ∃ s g, t = s ++ (signOf t).2 ∧ SignText s g ∧ (g : ℚ) = (if (signOf t).1 then -1 else 1) ∧
    g = (if (signOf t).1 then -1 else 1) := by
  unfold signOf
  split
  · exact ⟨['-'], -1, rfl, .minus, by norm_num, by norm_num⟩
  · exact ⟨['+'], 1, rfl, .plus, by norm_num, by norm_num⟩
  · exact ⟨[], 1, rfl, .none, by norm_num, by norm_num⟩

theorem SignText.run {s : Text} {g : Int} (h : SignText s g) {t : Text} (ht : ∀ c u, t = c :: u → c ≠ '+' ∧ c ≠ '-') :
    (signOf (s ++ t)).2 = t ∧ g = (if (signOf (s ++ t)).1 then -1 else 1) := by
  cases h with
  | plus => exact ⟨rfl, rfl⟩
  | minus => exact ⟨rfl, rfl⟩
  | none =>
    rw [List.nil_append]
    unfold signOf
    split
    · exact ((ht _ _ rfl).2 rfl).elim
    · exact ((ht _ _ rfl).1 rfl).elim
    · exact ⟨rfl, rfl⟩

theorem ExponentText.stops {x : Text} {e : Int} (h : ExponentText x e) : Stops x := by
  cases h with
  | none => intro c t e; cases e
  | power hc _ _ =>
    rintro c t ⟨⟩
    rcases hc with rfl | rfl <;> exact ⟨by decide, fun h => by cases h⟩

theorem ExponentText.not_point {x : Text} {e : Int} (h : ExponentText x e) (t : Text) : x ≠ '.' :: t := by
  rintro rfl
  cases h with
  | power hc _ _ => rcases hc with h | h <;> cases h

theorem ExponentText.no_group {x : Text} {e : Int} (h : ExponentText x e) : digitGroup x = Option.none := by
  cases h with
  | none => rfl
  | power hc _ _ => rcases hc with rfl | rfl <;> exact digitGroup_none (by decide)

theorem DigitText.no_sign {t : Text} {ds : List Nat} (h : DigitText t ds) (r : Text) : ∀ c u, t ++ r = c :: u → c ≠ '+' ∧ c ≠ '-' := by
  obtain ⟨c, u, rfl, hc⟩ := h.head
  rintro c' u' ⟨⟩
  exact ⟨by rintro rfl; revert hc; decide, by rintro rfl; revert hc; decide⟩

theorem ExponentText.run {x : Text} {e : Int} (h : ExponentText x e) : exponentOf x = some e := by
  cases h with
  | none => rfl
  | @power c s g t ds hc hs ht =>
    obtain ⟨h1, h2⟩ := hs.run (t := t) (by simpa using ht.no_sign [])
    have h3 := ht.group (r := []) (by rintro c t ⟨⟩)
    rw [List.append_nil] at h3
    simp only [exponentOf]
    rw [if_pos hc, h1, h3]
    simp only [horner]
    rw [h2]
    split_ifs <;> simp

theorem exponentOf_sound {x : Text} {e : Int} (h : exponentOf x = some e) : ExponentText x e := by
  rcases x with _ | ⟨c, t⟩
  · unfold exponentOf at h
    cases h
    exact .none
  · simp only [exponentOf] at h
    by_cases hc : c = 'e' ∨ c = 'E'
    swap
    · rw [if_neg hc] at h; cases h
    rw [if_pos hc] at h
    obtain ⟨s, g, h1, h2, _, h3⟩ := signOf_sound t
    rcases hg : digitGroup (signOf t).2 with _ | ⟨ds, r⟩
    · rw [hg] at h; cases h
    · rcases r with _ | ⟨c', r⟩
      · rw [hg] at h
        simp only [horner] at h
        obtain ⟨u, h4, h5⟩ := digitGroup_sound hg
        rw [List.append_nil] at h4
        have h6 := ExponentText.power hc h2 h5
        rw [← h4, ← h1, h3] at h6
        split_ifs at h h6 with hs
        · cases h; simpa using h6
        · cases h; simpa using h6
      · rw [hg] at h; cases h

theorem MantissaText.run {m : Text} {a : ℚ} (h : MantissaText m a) {x : Text} {e : Int} (hx : ExponentText x e) :
    ∃ ip fp, mantissa (m ++ x) = some (ip, fp, x) ∧ a = (numberOf ip : ℚ) + numberOf fp / 10 ^ fp.length ∧
      ∀ c u, m ++ x = c :: u → c ≠ '+' ∧ c ≠ '-' := by
  have hp : ∀ t, Stops ('.' :: t) := by
    rintro t c u ⟨⟩
    exact ⟨by decide, fun h => by cases h⟩
  cases h with
  | @int t ds ht =>
    refine ⟨ds, [], ?_, by simp [numberOf], ht.no_sign x⟩
    unfold mantissa
    rw [ht.group hx.stops]
    rcases x with _ | ⟨c, u⟩
    · rfl
    · split
      · next r heq =>
        simp only [Option.some.injEq, Prod.mk.injEq] at heq
        exact (hx.not_point _ heq.2).elim
      · next ip r _ heq =>
        simp only [Option.some.injEq, Prod.mk.injEq] at heq
        rw [← heq.1, ← heq.2]
      · next heq => cases heq
  | @point t ds ht =>
    refine ⟨ds, [], ?_, by simp [numberOf], by simpa using ht.no_sign ('.' :: x)⟩
    unfold mantissa
    rw [List.append_assoc, List.singleton_append, ht.group (hp x)]
    simp only [hx.no_group]
  | @frac t ds u es ht hu =>
    refine ⟨ds, es, ?_, rfl, by simpa using ht.no_sign ('.' :: (u ++ x))⟩
    unfold mantissa
    rw [List.append_assoc, List.cons_append, ht.group (hp _)]
    simp only [hu.group hx.stops]
  | @small u es hu =>
    refine ⟨[], es, ?_, by simp [numberOf], ?_⟩
    · unfold mantissa
      rw [List.cons_append, digitGroup_none (by decide)]
      simp only [hu.group hx.stops, Option.map_some]
    · rintro c' u' ⟨⟩
      exact ⟨by decide, by decide⟩

theorem mantissa_sound {t r : Text} {ip fp : List Nat} (h : mantissa t = some (ip, fp, r)) :
    ∃ m, t = m ++ r ∧ MantissaText m ((numberOf ip : ℚ) + numberOf fp / 10 ^ fp.length) := by
  have z : ∀ ds : List Nat, (numberOf ds : ℚ) + numberOf [] / 10 ^ ([] : List Nat).length = numberOf ds := by
    intro ds; simp [numberOf]
  unfold mantissa at h
  split at h
  · next ip' r' heq =>
    obtain ⟨u, h1, h2⟩ := digitGroup_sound heq
    split at h
    · next fp' r'' heq' =>
      cases h
      obtain ⟨w, h3, h4⟩ := digitGroup_sound heq'
      exact ⟨u ++ '.' :: w, by rw [h1, h3]; simp, .frac h2 h4⟩
    · cases h
      exact ⟨u ++ ['.'], by rw [h1]; simp, by rw [z]; exact .point h2⟩
  · next ip' r' _ heq =>
    cases h
    obtain ⟨u, h1, h2⟩ := digitGroup_sound heq
    exact ⟨u, h1, by rw [z]; exact .int h2⟩
  · split at h
    · next r' _ =>
      rcases hg : digitGroup r' with _ | ⟨ds, r''⟩
      · rw [hg] at h; cases h
      · rw [hg] at h
        cases h
        obtain ⟨u, h1, h2⟩ := digitGroup_sound hg
        refine ⟨'.' :: u, by rw [h1]; rfl, ?_⟩
        have := MantissaText.small h2
        simpa [numberOf] using this
    · cases h

theorem value_eq (ip fp : List Nat) (e : Int) :
    ((((ip ++ fp).foldl (fun a d => 10 * a + d) 0 : Nat) : ℚ) * (10 : ℚ) ^ (e - fp.length)) =
      ((numberOf ip : ℚ) + numberOf fp / 10 ^ fp.length) * (10 : ℚ) ^ e := by
  rw [List.foldl_append, horner, horner_append, zpow_sub₀ (by norm_num), zpow_natCast]
  push_cast
  field_simp

/-- `float` reads exactly the texts that denote numbers, as the number denoted. -/
theorem pyFloat_iff {t : Text} {q : ℚ} : pyFloat t = some q ↔ NumberText t q := by
  constructor
  · intro h
    obtain ⟨s, g, h1, h2, h3, _⟩ := signOf_sound t
    unfold pyFloat at h
    rcases hm : mantissa (signOf t).2 with _ | ⟨ip, fp, r⟩
    · rw [hm] at h; cases h
    · rw [hm] at h
      dsimp only at h
      rcases he : exponentOf r with _ | e
      · rw [he] at h; cases h
      · rw [he] at h
        obtain ⟨m, h4, h5⟩ := mantissa_sound hm
        refine ⟨s, g, m, _, r, e, by rw [List.append_assoc, ← h4]; exact h1, h2, h5, exponentOf_sound he, ?_⟩
        simp only [value_eq, Option.some.injEq] at h
        rw [← h, h3]
        split_ifs <;> ring
  · rintro ⟨s, g, m, a, x, e, rfl, h1, h2, h3, rfl⟩
    obtain ⟨ip, fp, h4, h5, h6⟩ := h2.run h3
    obtain ⟨h7, h8⟩ := h1.run h6
    unfold pyFloat
    rw [List.append_assoc, h7, h4]
    simp only [h3.run, value_eq, Option.some.injEq]
    rw [h8, h5]
    split_ifs <;> push_cast <;> ring

/-! ## Words -/

theorem mem_takeWhile_imp {α : Type} {p : α → Bool} {l : List α} {x : α} (h : x ∈ l.takeWhile p) : p x = true := by
  induction l with
  | nil => cases h
  | cons a l ih =>
    rw [List.takeWhile_cons] at h
    split at h
    · next ha =>
      rcases List.mem_cons.1 h with rfl | h
      · exact ha
      · exact ih h
    · cases h


theorem isSpace_iff (c : Char) : isSpace c = true ↔ WhiteSpace c := by
  unfold isSpace WhiteSpace
  generalize c.toNat = n
  simp only [Bool.or_eq_true, Bool.and_eq_true, decide_eq_true_eq, List.mem_cons, List.not_mem_nil, or_false]
  omega

theorem splitFrom_word (w acc t : Text) (hw : ∀ c ∈ w, ¬ WhiteSpace c) : splitFrom acc (w ++ t) = splitFrom (w.reverse ++ acc) t := by
  induction w generalizing acc with
  | nil => rfl
  | cons c w ih =>
    rw [List.cons_append, splitFrom, if_neg (by rw [isSpace_iff]; exact hw c (by simp)), ih _ (fun c hc => hw c (by simp [hc]))]
    simp

theorem splitFrom_blank (b t : Text) (hb : ∀ c ∈ b, WhiteSpace c) : splitFrom [] (b ++ t) = splitFrom [] t := by
  induction b with
  | nil => rfl
  | cons c b ih =>
    rw [List.cons_append, splitFrom, if_pos ((isSpace_iff c).2 (hb c (by simp))), if_pos rfl, ih (fun c hc => hb c (by simp [hc]))]

theorem splitFrom_end (acc t : Text) (ha : acc ≠ []) (ht : t = [] ∨ ∃ c u, t = c :: u ∧ WhiteSpace c) :
    splitFrom acc t = acc.reverse :: splitFrom [] t := by
  rcases ht with rfl | ⟨c, u, rfl, hc⟩
  · simp [splitFrom, ha]
  · rw [splitFrom, if_pos ((isSpace_iff c).2 hc), if_neg ha]
    conv_rhs => rw [splitFrom, if_pos ((isSpace_iff c).2 hc), if_pos rfl]

theorem WordsOf.split {l : Text} {ws : List Text} (h : WordsOf l ws) : splitWords l = ws := by
  unfold splitWords
  induction h with
  | nil hb =>
    have := splitFrom_blank _ [] hb
    rw [List.append_nil] at this
    rw [this]
    rfl
  | @cons b w t ws hb hne hw ht _ ih =>
    rw [List.append_assoc, splitFrom_blank _ _ hb, splitFrom_word _ _ _ hw, List.append_nil, splitFrom_end _ _ (by simpa using hne) ht, ih,
      List.reverse_reverse]

theorem wordsOf_exists (l : Text) : ∃ ws, WordsOf l ws := by
  suffices H : ∀ n (l : Text), l.length ≤ n → ∃ ws, WordsOf l ws from H l.length l le_rfl
  intro n
  induction n with
  | zero =>
    intro l hl
    have : l = [] := List.length_eq_zero_iff.1 (by omega)
    subst this
    exact ⟨[], .nil (by simp)⟩
  | succ n ih =>
    intro l hl
    have hb := List.takeWhile_append_dropWhile (p := isSpace) (l := l)
    rcases hd : l.dropWhile isSpace with _ | ⟨c, u⟩
    · rw [hd, List.append_nil] at hb
      refine ⟨[], .nil fun c hc => (isSpace_iff c).1 ?_⟩
      rw [← hb] at hc
      exact mem_takeWhile_imp hc
    · have hc : isSpace c = false := by
        have := List.head_dropWhile_not isSpace (l := l) (by rw [hd]; simp)
        simpa [hd] using this
      have hw := List.takeWhile_append_dropWhile (p := fun c => !isSpace c) (l := c :: u)
      have hlen : (c :: u).length ≤ l.length := by rw [← hb, hd]; simp
      have htake : (c :: u).takeWhile (fun c => !isSpace c) = c :: u.takeWhile (fun c => !isSpace c) := by
        simp [hc]
      have hdrop : (c :: u).dropWhile (fun c => !isSpace c) = u.dropWhile (fun c => !isSpace c) := by
        simp [hc]
      obtain ⟨ws, h⟩ := ih (u.dropWhile fun c => !isSpace c) (by
        have := (List.dropWhile_suffix (fun c => !isSpace c) (l := u)).length_le
        simp only [List.length_cons] at hlen
        omega)
      refine ⟨(c :: u.takeWhile fun c => !isSpace c) :: ws, ?_⟩
      rw [← hb, hd, ← hw, htake, hdrop, ← List.append_assoc]
      refine .cons (fun c hc => (isSpace_iff c).1 (mem_takeWhile_imp hc)) (by simp) ?_ ?_ h
      · intro x hx hb
        rw [← htake] at hx
        have := mem_takeWhile_imp hx
        rw [(isSpace_iff x).2 hb] at this
        simp at this
      · rcases hu : u.dropWhile (fun c => !isSpace c) with _ | ⟨x, v⟩
        · exact .inl rfl
        · refine .inr ⟨x, v, rfl, (isSpace_iff x).1 ?_⟩
          have := List.head_dropWhile_not (fun c => !isSpace c) (l := u) (by rw [hu]; simp)
          simpa [hu] using this

theorem splitWords_iff {l : Text} {ws : List Text} : splitWords l = ws ↔ WordsOf l ws := by
  constructor
  · rintro rfl
    obtain ⟨ws, h⟩ := wordsOf_exists l
    rw [h.split]
    exact h
  · exact WordsOf.split

theorem mapM_some_iff {α β : Type} {f : α → Option β} {l : List α} {ys : List β} :
    l.mapM f = some ys ↔ List.Forall₂ (fun x y => f x = some y) l ys := by
  induction l generalizing ys with
  | nil => cases ys <;> simp
  | cons x l ih =>
    rw [List.mapM_cons]
    rcases hx : f x with _ | y
    · simp only [Option.bind_eq_bind, Option.bind_none, reduceCtorEq, false_iff]
      intro h
      cases h with
      | cons h _ => rw [hx] at h; cases h
    · rcases hl : l.mapM f with _ | zs
      · simp only [Option.bind_eq_bind, Option.bind_some, Option.bind_none, reduceCtorEq, false_iff]
        intro h
        cases h with
        | cons _ h => rw [ih.2 h] at hl; cases hl
      · simp only [Option.bind_eq_bind, Option.bind_some, Option.pure_def, Option.some.injEq]
        constructor
        · rintro rfl
          exact .cons hx (ih.1 hl)
        · intro h
          cases h with
          | cons h1 h2 =>
            rw [hx] at h1
            rw [ih.2 h2] at hl
            cases h1; cases hl
            rfl

theorem lineNumbers_iff {l : Text} {row : List ℚ} : lineNumbers l = some row ↔ LineText l row := by
  unfold lineNumbers LineText
  rw [mapM_some_iff]
  simp only [pyFloat_iff]
  constructor
  · intro h
    exact ⟨_, splitWords_iff.1 rfl, h⟩
  · rintro ⟨ws, h1, h2⟩
    rw [splitWords_iff.2 h1]
    exact h2

/-- A break at the end of a line adds no word. -/
theorem splitWords_break (l : Text) : splitWords (l ++ ['\n']) = splitWords l := by
  unfold splitWords
  suffices H : ∀ acc, splitFrom acc (l ++ ['\n']) = splitFrom acc l from H []
  induction l with
  | nil =>
    intro acc
    simp only [List.nil_append, splitFrom]
    rw [if_pos (show isSpace '\n' = true by decide)]
    split_ifs <;> simp
  | cons c l ih =>
    intro acc
    rw [List.cons_append, splitFrom, splitFrom, ih, ih]

/-! ## Lines -/

theorem universalNewlines_line {l t : Text} (hl : NoBreak l) : universalNewlines (l ++ t) = l ++ universalNewlines t := by
  induction l with
  | nil => rfl
  | cons c l ih =>
    obtain ⟨h1, h2⟩ := hl
    simp only [List.mem_cons, not_or] at h1 h2
    rw [List.cons_append, List.cons_append, ← ih ⟨h1.2, h2.2⟩]
    generalize l ++ t = w
    rw [universalNewlines.eq_def]
    split
    · next h => cases h
    · next h => cases h; exact (h2.1 rfl).elim
    · next h => cases h; exact (h2.1 rfl).elim
    · next h => cases h; rfl

theorem readlines_line {l t : Text} (hl : NoBreak l) : readlines (l ++ '\n' :: t) = (l ++ ['\n']) :: readlines t := by
  induction l with
  | nil => simp [readlines]
  | cons c l ih =>
    obtain ⟨h1, h2⟩ := hl
    simp only [List.mem_cons, not_or] at h1 h2
    rw [List.cons_append, readlines, if_neg (fun h => h1.1 h.symm), ih ⟨h1.2, h2.2⟩]
    rfl

theorem readlines_last {l : Text} (hne : l ≠ []) (hl : NoBreak l) : readlines l = [l] := by
  induction l with
  | nil => exact (hne rfl).elim
  | cons c l ih =>
    obtain ⟨h1, h2⟩ := hl
    simp only [List.mem_cons, not_or] at h1 h2
    rw [readlines, if_neg (fun h => h1.1 h.symm)]
    rcases l with _ | ⟨d, l⟩
    · rfl
    · rw [ih (by simp) ⟨h1.2, h2.2⟩]

theorem universalNewlines_cr {t : Text} (h : t.head? ≠ some '\n') : universalNewlines ('\r' :: t) = '\n' :: universalNewlines t := by
  rcases t with _ | ⟨c, t⟩
  · rfl
  · rw [universalNewlines.eq_def]
    split
    · next h => cases h
    · next h' => cases h'; simp at h
    · next h' => cases h'; rfl
    · next h1 h2 h' => cases h'; exact (h2 rfl).elim

theorem LinesOf.read {text : Text} {ls : List Text} (h : LinesOf text ls) :
    (readlines (universalNewlines text)).mapM lineNumbers = ls.mapM lineNumbers := by
  induction h with
  | empty => rfl
  | last hne hl =>
    have := universalNewlines_line (t := []) hl
    simp only [List.append_nil, universalNewlines] at this
    rw [this, readlines_last hne hl]
  | @line l nl rest ls hl hnl _ ih =>
    have e : universalNewlines (l ++ nl ++ rest) = l ++ '\n' :: universalNewlines rest := by
      rw [List.append_assoc, universalNewlines_line hl]
      congr 1
      rcases hnl with rfl | rfl | ⟨rfl, h⟩
      · rfl
      · rfl
      · exact universalNewlines_cr h
    rw [e, readlines_line hl, List.mapM_cons, List.mapM_cons, ih]
    unfold lineNumbers
    rw [splitWords_break]

theorem linesOf_exists (text : Text) : ∃ ls, LinesOf text ls := by
  suffices H : ∀ n (l : Text), l.length ≤ n → ∃ ls, LinesOf l ls from H text.length text le_rfl
  intro n
  induction n with
  | zero =>
    intro l hl
    have : l = [] := List.length_eq_zero_iff.1 (by omega)
    subst this
    exact ⟨[], .empty⟩
  | succ n ih =>
    intro l hl
    let p : Char → Bool := fun c => c ≠ '\n' && c ≠ '\r'
    have hw := List.takeWhile_append_dropWhile (p := p) (l := l)
    have hno : NoBreak (l.takeWhile p) := by
      constructor <;> intro h <;> have := mem_takeWhile_imp h <;> simp [p] at this
    rcases hd : l.dropWhile p with _ | ⟨c, u⟩
    · rw [hd, List.append_nil] at hw
      rw [hw] at hno
      by_cases hl : l = []
      · subst hl; exact ⟨[], .empty⟩
      · exact ⟨[l], .last hl hno⟩
    · have hc : c = '\n' ∨ c = '\r' := by
        have := List.head_dropWhile_not p (l := l) (by rw [hd]; simp)
        simp only [hd, List.head_cons] at this
        simp only [p, ne_eq, decide_not, Bool.and_eq_false_iff, Bool.not_eq_eq_eq_not, Bool.not_false, decide_eq_true_eq] at this
        exact this
      have hlen : (c :: u).length ≤ l.length := by rw [← hw, hd]; simp
      simp only [List.length_cons] at hlen
      rw [← hw, hd]
      by_cases hcr : c = '\r' ∧ u.head? = some '\n'
      · obtain ⟨rfl, hu⟩ := hcr
        rcases u with _ | ⟨x, u⟩
        · cases hu
        · simp only [List.head?_cons, Option.some.injEq] at hu
          subst hu
          simp only [List.length_cons] at hlen
          obtain ⟨ls, h⟩ := ih u (by omega)
          refine ⟨l.takeWhile p :: ls, ?_⟩
          have := LinesOf.line hno (nl := ['\r', '\n']) (.inr (.inl rfl)) h
          simpa using this
      · obtain ⟨ls, h⟩ := ih u (by omega)
        refine ⟨l.takeWhile p :: ls, ?_⟩
        have := LinesOf.line hno (nl := [c]) (by
          rcases hc with rfl | rfl
          · exact .inl rfl
          · exact .inr (.inr ⟨rfl, fun h => hcr ⟨rfl, h⟩⟩)) h
        simpa using this

theorem fileData_iff {text : Text} {rows : Rows} : fileData text = .ok rows ↔ FileText text rows := by
  obtain ⟨ls, hls⟩ := linesOf_exists text
  unfold fileData
  constructor
  · intro h
    rw [hls.read] at h
    rcases hm : ls.mapM lineNumbers with _ | rows'
    · rw [hm] at h; cases h
    · rw [hm] at h
      cases h
      have := mapM_some_iff.1 hm
      simp only [lineNumbers_iff] at this
      exact ⟨ls, hls, this⟩
  · rintro ⟨ls', h1, h2⟩
    have : ls'.mapM lineNumbers = some rows := mapM_some_iff.2 (by simpa only [lineNumbers_iff] using h2)
    rw [h1.read, this]

end Jinete
