import Verif.Lemmas.Yy
import Verif.Model.LecLex
import Verif.Spec.LecLex
import Mathlib.Tactic.FieldSimp
import Mathlib.Tactic.Ring
import Mathlib.Data.Rat.Lemmas
import Mathlib.Algebra.Order.Field.Rat

/-! # The reader of formulas on a text laid out as tokens and gaps -/
namespace Iode
namespace Lec
open Yy Written
abbrev Text := List Char

/-! ## Characters -/

theorem isSpace_of_white {c : Char} (h : White c) : isSpace c = true := by
  simp only [White] at h
  simp only [isSpace, Bool.or_eq_true, decide_eq_true_eq]
  omega

theorem accents_big : ∀ n ∈ accents, 128 ≤ n := by decide

theorem isAlpha_iff {c : Char} (h : c.toNat < 128) : isAlpha c = true ↔ Upper c ∨ Lower c := by
  have : accents.contains c.toNat = false := by
    rw [← Bool.not_eq_true, List.contains_iff_mem]
    intro hm
    have := accents_big _ hm
    omega
  simp only [isAlpha, this, Bool.or_false, Bool.or_eq_true, Bool.and_eq_true, decide_eq_true_eq, Upper, Lower]

theorem isNum_iff {c : Char} : isNum c = true ↔ Digit c := by
  simp [isNum, Digit]

theorem isWord_iff {c : Char} (h : c.toNat < 128) : isWord c = true ↔ NameCh c := by
  simp only [isWord, Bool.or_eq_true, isAlpha_iff h, isNum_iff, decide_eq_true_eq, NameCh, or_assoc]

theorem nameCh_lt {c : Char} (h : NameCh c) : c.toNat < 128 := by
  rcases h with h | h | h | h
  · exact Nat.lt_of_le_of_lt h.2 (by omega)
  · exact Nat.lt_of_le_of_lt h.2 (by omega)
  · exact Nat.lt_of_le_of_lt h.2 (by omega)
  · subst h; decide

theorem isWord_of_nameCh {c : Char} (h : NameCh c) : isWord c = true := (isWord_iff (nameCh_lt h)).2 h

theorem digit_nameCh {c : Char} (h : Digit c) : NameCh c := .inr (.inr (.inl h))

/-- A character of a name is no space, quote, dollar, slash ... -/
theorem nameCh_ne {c x : Char} (h : NameCh c) (hx : ¬ NameCh x) : c ≠ x := fun e => hx (e ▸ h)

theorem nameCh_not_space {c : Char} (h : NameCh c) : isSpace c = false := by
  rw [← Bool.not_eq_true]
  simp only [isSpace, Bool.or_eq_true, decide_eq_true_eq]
  rcases h with h | h | h | h
  · have := h.1; omega
  · have := h.1; omega
  · have := h.1; omega
  · subst h; decide

theorem digits_isNum {d : Text} (h : Digits d) : ∀ c ∈ d, isNum c = true := fun c hc => isNum_iff.2 (h c hc)

/-! ## Words -/

theorem takeWhile_append {p : Char → Bool} {w s : Text} (hw : ∀ c ∈ w, p c = true) (hs : ∀ c, s.head? = some c → p c = false) :
    (w ++ s).takeWhile p = w ∧ (w ++ s).dropWhile p = s := by
  induction w with
  | nil =>
    cases s with
    | nil => exact ⟨rfl, rfl⟩
    | cons c r => simp [List.takeWhile_cons, List.dropWhile_cons, hs c rfl]
  | cons c r ih =>
    have := ih fun c hc => hw c (by simp [hc])
    simp [List.takeWhile_cons, List.dropWhile_cons, hw c (by simp), this.1, this.2]

theorem nameEnd_isWord {s : Text} (h : NameEnd s) : ∀ c, s.head? = some c → isWord c = false := by
  intro c hc
  obtain ⟨h1, h2⟩ := h c hc
  rw [← Bool.not_eq_true, isWord_iff h2]
  exact h1

theorem read_word {c : Char} {w s : Text} (hc : ¬ Digit c) (hw : ∀ x ∈ c :: w, NameCh x) (hs : NameEnd s) :
    read (c :: (w ++ s)) = (.word (c :: w), s) := by
  have h := hw c (by simp)
  have ht := takeWhile_append (p := isWord) (fun x hx => isWord_of_nameCh (hw x hx)) (nameEnd_isWord hs)
  rw [List.cons_append] at ht
  rw [Yy.read, skipSpaces_stop (nameCh_not_space h)]
  simp only
  rw [if_neg (nameCh_ne h (by decide)), readFrom.eq_def, if_neg (nameCh_ne h (by decide)), if_neg (nameCh_ne h (by decide)),
    if_neg (nameCh_ne h (by decide)), if_neg (nameCh_ne h (by decide)), if_neg (by rw [isNum_iff]; exact hc), if_pos]
  · rw [readWord, ht.1, ht.2]
  · have := (isWord_iff (nameCh_lt h)).2 h
    have hn : isNum c = false := by rw [← Bool.not_eq_true, isNum_iff]; exact hc
    simpa [isWord, hn] using this

/-- The table of the reader has exactly the key words. -/
theorem table_keywords : ∀ k ∈ keywords, findWord lecTable k.1.toList = some k.2 ∧
    (∀ x ∈ k.1.toList, Lower x ∨ Digit x) ∧ k.1.toList.head? ≠ none ∧ (∀ c, k.1.toList.head? = some c → Lower c) := by
  decide +kernel

theorem table_words : ∀ e ∈ lecTable, (∀ x ∈ e.1, NameCh x) → ∃ k ∈ keywords, k.1.toList = e.1 := by decide +kernel

theorem findWord_none {w : Text} (hw : ∀ x ∈ w, NameCh x) (hk : ∀ k ∈ keywords, k.1.toList ≠ w) :
    findWord lecTable w = none := by
  rw [findWord, Option.map_eq_none_iff, List.find?_eq_none]
  intro e he
  simp only [decide_eq_true_eq]
  rintro rfl
  obtain ⟨k, h1, h2⟩ := table_words e he hw
  exact hk k h1 h2

/-! ## Numbers -/

theorem natOf_acc (d : Text) (n : Nat) :
    d.foldl (fun n c => 10 * n + (c.toNat - 48)) n = n * 10 ^ d.length + dec d := by
  induction d generalizing n with
  | nil => simp [dec]
  | cons c r ih =>
    rw [List.foldl_cons, ih, dec, List.length_cons, Nat.pow_succ]
    ring

theorem natOf_eq (d : Text) : natOf d = dec d := by
  rw [natOf, natOf_acc]; simp

theorem natOf_append (i f : Text) : natOf (i ++ f) = dec i * 10 ^ f.length + dec f := by
  rw [natOf, List.foldl_append, natOf_acc, natOf_acc]; simp

theorem digit_not_space {c : Char} (h : Digit c) : isSpace c = false := nameCh_not_space (digit_nameCh h)

theorem read_digit {c : Char} (h : Digit c) (s : Text) :
    Yy.read (c :: s) = numRaw (readNum false false false [] (c :: s)) := by
  have hn := digit_nameCh h
  rw [Yy.read, skipSpaces_stop (digit_not_space h)]
  simp only
  rw [if_neg (nameCh_ne hn (by decide)), readFrom.eq_def, if_neg (nameCh_ne hn (by decide)),
    if_neg (nameCh_ne hn (by decide)), if_neg (nameCh_ne hn (by decide)), if_neg (nameCh_ne hn (by decide)),
    if_pos (isNum_iff.2 h)]

theorem read_point {c : Char} (h : Digit c) (s : Text) :
    Yy.read ('.' :: c :: s) = numRaw (readNum true false false ['.'] (c :: s)) := by
  rw [Yy.read, skipSpaces_stop (by decide)]
  simp only
  rw [if_neg (by decide), readFrom.eq_def, if_neg (by decide), if_neg (by decide), if_neg (by decide), if_neg (by decide),
    if_neg (by decide), if_neg (by decide), if_pos rfl]
  simp only
  rw [if_pos (isNum_iff.2 h)]

theorem numEnd_num {s : Text} (h : NumEnd s) :
    ∀ c, s.head? = some c → isNum c = false ∧ c ≠ 'e' ∧ c ≠ 'E' ∧ c ≠ '.' := by
  intro c hc
  obtain ⟨h1, h2⟩ := h c hc
  refine ⟨?_, h2⟩
  rw [← Bool.not_eq_true, isNum_iff]
  exact h1

theorem read_long {d s : Text} (hd : Digits d) (hne : d ≠ []) (hl : d.length ≤ 9) (hs : NumEnd s) :
    Yy.read (d ++ s) = (.long d, s) := by
  have : Yy.read (d ++ s) = numRaw (readNum false false false [] (d ++ s)) := by
    cases d with
    | nil => exact absurd rfl hne
    | cons c r => exact read_digit (hd c (by simp)) _
  rw [this, readNum_digits (digits_isNum hd), Bool.false_and, readNum_end (numEnd_num hs), List.nil_append, numRaw]
  simp only
  rw [if_pos ⟨trivial, by omega⟩]

/-- The exponent as the reader stores it. -/
theorem read_expo {x : Text} {e : Int} (h : Expo x e) {s : Text} (hs : NumEnd s) :
    ∃ x', x'.length = x.length ∧ (x' = [] ∨ ∃ r, x' = 'E' :: r) ∧ expOf (x'.drop 1) = e ∧
      ∀ dbl acc, readNum dbl false false acc (x ++ s) = (acc ++ x', dbl || !x.isEmpty, s) := by
  have hE : ∀ c : Char, c = 'e' ∨ c = 'E' → isNum c = false ∧ (c = 'e' || c = 'E') = true := by
    rintro c (rfl | rfl) <;> decide
  have tw : ∀ d : Text, Digits d → d.takeWhile isNum = d := by
    intro d hd
    have := (takeWhile_append (p := isNum) (w := d) (s := []) (digits_isNum hd) (by simp)).1
    rwa [List.append_nil] at this
  cases h with
  | none =>
    refine ⟨[], rfl, .inl rfl, rfl, fun dbl acc => ?_⟩
    rw [List.nil_append, readNum_end (numEnd_num hs)]
    simp
  | @plain c d hc hd hne =>
    refine ⟨'E' :: d, by simp, .inr ⟨_, rfl⟩, ?_, fun dbl acc => ?_⟩
    · cases d with
      | nil => exact absurd rfl hne
      | cons a r =>
        have ha := digit_nameCh (hd a (by simp))
        simp only [List.drop_succ_cons, List.drop_zero, expOf]
        rw [if_neg (nameCh_ne ha (by decide)), if_neg (nameCh_ne ha (by decide)), tw _ hd, natOf_eq]
    · rw [List.cons_append, readNum, if_neg (by simp [(hE c hc).1]), if_pos (hE c hc).2, if_neg (by decide),
        readNum_digits (digits_isNum hd)]
      have : d.isEmpty = false := by cases d <;> simp_all
      rw [this, Bool.and_false, readNum_end (numEnd_num hs)]
      simp
  | @plus c d hc hd hne =>
    refine ⟨'E' :: '+' :: d, by simp, .inr ⟨_, rfl⟩, ?_, fun dbl acc => ?_⟩
    · simp only [List.drop_succ_cons, List.drop_zero, expOf]
      rw [if_neg (by decide), if_pos trivial, tw _ hd, natOf_eq]
    · rw [List.cons_append, readNum, if_neg (by simp [(hE c hc).1]), if_pos (hE c hc).2, if_neg (by decide),
        List.cons_append, readNum, if_neg (by decide), if_neg (by decide), if_pos (by decide),
        readNum_digits (digits_isNum hd), Bool.false_and, readNum_end (numEnd_num hs)]
      simp
  | @minus c d hc hd hne =>
    refine ⟨'E' :: '-' :: d, by simp, .inr ⟨_, rfl⟩, ?_, fun dbl acc => ?_⟩
    · simp only [List.drop_succ_cons, List.drop_zero, expOf]
      rw [if_pos trivial, tw _ hd, natOf_eq]
    · rw [List.cons_append, readNum, if_neg (by simp [(hE c hc).1]), if_pos (hE c hc).2, if_neg (by decide),
        List.cons_append, readNum, if_neg (by decide), if_neg (by decide), if_pos (by decide),
        readNum_digits (digits_isNum hd), Bool.false_and, readNum_end (numEnd_num hs)]
      simp

theorem number_eq (i f : Text) (e : Int) :
    mkRat (natOf (i ++ f) * 10 ^ (e - f.length).toNat) (10 ^ (-(e - f.length)).toNat) = number i f e := by
  rw [natOf_append, number, Rat.mkRat_eq_div]
  push_cast
  have hk : (e - f.length).toNat + f.length + (-e).toNat = e.toNat + (-(e - f.length)).toNat := by omega
  have hp : (10 : Rat) ^ (e - f.length).toNat * 10 ^ f.length * 10 ^ (-e).toNat =
      10 ^ e.toNat * 10 ^ (-(e - f.length)).toNat := by
    rw [← pow_add, ← pow_add, ← pow_add, hk]
  have h10 : ∀ n : Nat, (10 : Rat) ^ n ≠ 0 := fun n => pow_ne_zero n (by norm_num)
  rw [div_eq_div_iff (h10 _) (h10 _)]
  have h1 : ((dec i : Rat) + (dec f : Rat) / 10 ^ f.length) = (dec i * 10 ^ f.length + dec f) / 10 ^ f.length := by
    rw [add_div, mul_div_assoc, div_self (h10 _), mul_one]
  rw [h1]
  calc ((dec i : Rat) * 10 ^ f.length + dec f) * 10 ^ (e - f.length).toNat * 10 ^ (-e).toNat
      = ((dec i : Rat) * 10 ^ f.length + dec f) / 10 ^ f.length *
          (10 ^ (e - f.length).toNat * 10 ^ f.length * 10 ^ (-e).toNat) := by
        field_simp
    _ = _ := by rw [hp]; ring

theorem digits_ne {d : Text} (h : Digits d) {x : Char} (hx : ¬ NameCh x) : ∀ c ∈ d, decide (c ≠ x) = true := by
  intro c hc
  simp only [decide_eq_true_eq]
  exact nameCh_ne (digit_nameCh (h c hc)) hx

theorem digits_neE {d : Text} (h : Digits d) : ∀ c ∈ d, decide (c ≠ 'E') = true := by
  intro c hc
  simp only [decide_eq_true_eq]
  rintro rfl
  exact absurd (h _ hc) (by decide)

theorem atofVal_whole {i x' : Text} (hi : Digits i) (hx : x' = [] ∨ ∃ r, x' = 'E' :: r) :
    atofVal (i ++ x') = number i [] (expOf (x'.drop 1)) := by
  have hE : ∀ c, x'.head? = some c → decide (c ≠ 'E') = false := by
    rcases hx with rfl | ⟨r, rfl⟩ <;> simp
  have h1 := takeWhile_append (digits_neE hi) hE
  have h2 := takeWhile_append (s := []) (digits_ne hi (x := '.') (by decide)) (by simp)
  rw [List.append_nil] at h2
  simp only [atofVal]
  rw [h1.1, h1.2, h2.1, h2.2]
  exact number_eq i [] _

theorem atofVal_point {i f x' : Text} (hi : Digits i) (hf : Digits f) (hx : x' = [] ∨ ∃ r, x' = 'E' :: r) :
    atofVal (i ++ '.' :: (f ++ x')) = number i f (expOf (x'.drop 1)) := by
  have hE : ∀ c, x'.head? = some c → decide (c ≠ 'E') = false := by
    rcases hx with rfl | ⟨r, rfl⟩ <;> simp
  have h0 : ∀ c ∈ i ++ '.' :: f, decide (c ≠ 'E') = true := by
    intro c hc
    simp only [List.mem_append, List.mem_cons] at hc
    rcases hc with hc | rfl | hc
    · exact digits_neE hi c hc
    · decide
    · exact digits_neE hf c hc
  have h1 := takeWhile_append h0 hE
  have h2 := takeWhile_append (s := '.' :: f) (digits_ne hi (x := '.') (by decide)) (by simp)
  rw [show i ++ '.' :: (f ++ x') = (i ++ '.' :: f) ++ x' by simp]
  simp only [atofVal]
  rw [h1.1, h1.2, h2.1, h2.2]
  simp only [List.drop_succ_cons, List.drop_zero]
  exact number_eq i f _

theorem read_decimal {d : Text} {q : Rat} (h : Decimal d q) {s : Text} (hs : NumEnd s) :
    ∃ d', d'.length = d.length ∧ atofVal d' = q ∧ Yy.read (d ++ s) = (.double d', s) := by
  cases h with
  | @whole i x e hi hne hx hl =>
    obtain ⟨x', e1, e2, e3, e4⟩ := read_expo hx hs
    refine ⟨i ++ x', by simp [e1], by rw [atofVal_whole hi e2, e3], ?_⟩
    have : Yy.read (i ++ x ++ s) = numRaw (readNum false false false [] (i ++ (x ++ s))) := by
      cases i with
      | nil => exact absurd rfl hne
      | cons c r => rw [List.append_assoc]; exact read_digit (hi c (by simp)) _
    rw [this, readNum_digits (digits_isNum hi), Bool.false_and, e4, List.nil_append, numRaw]
    simp only
    rw [if_neg]
    rintro ⟨h1, h2⟩
    rcases hl with hl | hl
    · cases x with
      | nil => exact hl rfl
      | cons c r => simp at h1
    · simp only [List.length_append] at h2
      omega
  | @point i f x e hi hf hne hx =>
    obtain ⟨x', e1, e2, e3, e4⟩ := read_expo hx hs
    refine ⟨i ++ '.' :: (f ++ x'), by simp [e1], by rw [atofVal_point hi hf e2, e3], ?_⟩
    cases i with
    | nil =>
      have : Yy.read ([] ++ '.' :: (f ++ x) ++ s) = numRaw (readNum true false false ['.'] (f ++ (x ++ s))) := by
        cases f with
        | nil => simp at hne
        | cons c r =>
          simp only [List.nil_append, List.cons_append, List.append_assoc]
          exact read_point (hf c (by simp)) _
      rw [this, readNum_digits (digits_isNum hf), Bool.false_and, e4, numRaw]
      simp
    | cons c r =>
      have : Yy.read (c :: r ++ '.' :: (f ++ x) ++ s) =
          numRaw (readNum false false false [] ((c :: r) ++ ('.' :: (f ++ (x ++ s))))) := by
        simp only [List.cons_append, List.append_assoc]
        exact read_digit (hi c (by simp)) _
      rw [this, readNum_digits (digits_isNum hi), Bool.false_and, readNum, if_neg (by decide), if_neg (by decide),
        if_neg (by decide), if_pos rfl, if_neg (by decide), readNum_digits (digits_isNum hf), Bool.false_and, e4, numRaw]
      simp

/-! ## Periods -/

theorem per_none {c : Char} (h : c ∉ periodLetters) : mapPeriodicities (toUpperC c) = none := by
  by_cases hl : 97 ≤ c.toNat ∧ c.toNat ≤ 122
  · have : ∀ n < 123, 97 ≤ n → Char.ofNat n ∉ periodLetters → mapPeriodicities (toUpperC (Char.ofNat n)) = none := by
      decide +kernel
    have := this c.toNat (by omega) hl.1
    rw [Char.ofNat_toNat] at this
    exact this h
  · rw [toUpperC, if_neg hl]
    unfold mapPeriodicities
    split <;> first | rfl | exact absurd (by decide) h

theorem per_some : ∀ c ∈ periodLetters, mapPeriodicities (toUpperC c) = some ((perYear c).2 : Int) ∧
    toUpperC c = (perYear c).1 ∧ ¬ Digit c ∧ c ≠ 'e' ∧ c ≠ 'E' ∧ c ≠ '.' := by decide +kernel

theorem fullYear_eq (y : Nat) : fullYear y = century y := by
  rw [fullYear, century]
  split
  · omega
  · split <;> omega

/-! ## Operators -/

/-- A character that is read as itself. -/
def Special (c : Char) : Prop :=
  isSpace c = false ∧ c ≠ '/' ∧ c ≠ '"' ∧ c ≠ '\'' ∧ c ≠ '$' ∧ c ≠ '#' ∧ isNum c = false ∧
    (isAlpha c || decide (c = '_')) = false ∧ c ≠ '.'

instance (c : Char) : Decidable (Special c) := inferInstanceAs (Decidable (_ ∧ _))

theorem read_special {c : Char} (h : Special c) (s : Text) : Yy.read (c :: s) = (.special c, s) := by
  obtain ⟨h1, h2, h3, h4, h5, h6, h7, h8, h9⟩ := h
  rw [Yy.read, skipSpaces_stop h1]
  simp only
  rw [if_neg h2, readFrom.eq_def, if_neg h3, if_neg h4, if_neg h5, if_neg h6, h7, if_neg (by decide), h8, if_neg (by decide),
    if_neg h9]

theorem read_slash {s : Text} (h1 : s.head? ≠ some '/') (h2 : s.head? ≠ some '*') : Yy.read ('/' :: s) = (.special '/', s) := by
  rw [Yy.read, skipSpaces_stop (by decide)]
  simp only
  rw [if_pos trivial]
  cases s with
  | nil => rfl
  | cons a r =>
    simp only [List.head?_cons, ne_eq, Option.some.injEq] at h1 h2
    split
    · rename_i heq; simp only [List.cons.injEq] at heq; exact absurd heq.1 h2
    · rename_i heq; simp only [List.cons.injEq] at heq; exact absurd heq.1 h1
    · rfl

theorem findOper_single {tbl : Keys RTok} {c : Char} {d : RTok} {es : List (Option Char × RTok)}
    (h : operKeys tbl c = some (d, es)) {s : Text}
    (hs : ∀ ch, (skipSpaces s).head? = some ch → ∀ e ∈ es, e.1 ≠ some ch) :
    ∃ s', findOper tbl c s = (some d, s') ∧ (s' = s ∨ s' = skipSpaces s) := by
  rw [findOper, h]
  cases es with
  | nil => exact ⟨s, rfl, .inl rfl⟩
  | cons e es =>
    simp only
    cases hk : skipSpaces s with
    | nil => exact ⟨[], rfl, .inr rfl⟩
    | cons ch r =>
      rw [hk] at hs
      have : (e :: es).find? (fun e => decide (e.1 = some ch)) = none := by
        rw [List.find?_eq_none]
        intro x hx
        simpa using hs ch rfl x hx
      simp only [this]
      exact ⟨_, rfl, .inr rfl⟩

theorem findOper_pair {tbl : Keys RTok} {c ch : Char} {d : RTok} {e : Option Char × RTok} {es : List (Option Char × RTok)}
    (h : operKeys tbl c = some (d, es)) (he : es.find? (fun e => decide (e.1 = some ch)) = some e) {s r : Text}
    (hs : skipSpaces s = ch :: r) : findOper tbl c s = (some e.2, r) := by
  rw [findOper, h]
  cases es with
  | nil => cases he
  | cons a es => simp only [hs, he]

theorem simple_keys : ∀ p ∈ simple, Special p.1 ∧
    (operKeys lecTable p.1).any (fun q => q.1 = p.2 && q.2.all (fun e => e.1 = some ' ')) = true := by decide +kernel

theorem longer_keys : ∀ p ∈ longer, Special p.1 ∧
    (operKeys lecTable p.1).any (fun q => q.1 = p.2.1 && q.2.all (fun e => e.1.any (p.2.2.contains ·))) = true := by
  decide +kernel

theorem pair_keys : ∀ p ∈ pairs, Special p.1 ∧ Special p.2.1 ∧
    (operKeys lecTable p.1).any (fun q => q.2.find? (fun e => e.1 = some p.2.1) = some (some p.2.1, p.2.2)) = true := by
  decide +kernel

theorem slash_key : operKeys lecTable '/' = some (.op .divide, []) := by decide +kernel

theorem eoe_key : operKeys lecTable ';' = some (.eoe, []) ∧ Special ';' := by decide +kernel

/-! ## Tokens -/

/-- No return characters (the reader never sees any, `expand`). -/
def NoCr (s : Text) : Prop := ∀ c ∈ s, c.toNat ≠ 13

theorem isSpace_eq {c : Char} (h : c.toNat ≠ 13) : isSpace c = decide (White c) := by
  rw [Bool.eq_iff_iff, decide_eq_true_iff, White]
  simp only [isSpace, Bool.or_eq_true, decide_eq_true_eq]
  constructor <;> intro _ <;> omega

theorem next_eq {s : Text} (h : NoCr s) : (skipSpaces s).head? = next s := by
  rw [next]
  congr 1
  induction s with
  | nil => rfl
  | cons c r ih =>
    have h1 := isSpace_eq (h c (by simp))
    have h2 := ih fun c hc => h c (by simp [hc])
    rw [List.dropWhile_cons, ← h1]
    cases hc : isSpace c with
    | true => rw [skipSpaces_cons hc, if_pos rfl, h2]
    | false => rw [skipSpaces_stop hc, if_neg (by decide)]

theorem skip_head {s : Text} {c : Char} (h : (skipSpaces s).head? = some c) : isSpace c = false := by
  induction s with
  | nil => cases h
  | cons a r ih =>
    cases ha : isSpace a with
    | true => rw [skipSpaces_cons ha] at h; exact ih h
    | false => rw [skipSpaces_stop ha] at h; cases h; exact ha

theorem classify_special {x s s' : Text} {c : Char} {k : RTok} (h : Yy.read x = (.special c, s))
    (hf : findOper lecTable c s = (some k, s')) : classify lecTable (Yy.read x) = (.key k, s') := by
  rw [h, classify]; simp only [hf]

theorem any_some {α : Type} {o : Option α} {p : α → Bool} (h : o.any p = true) : ∃ a, o = some a ∧ p a = true := by
  cases o with
  | none => cases h
  | some a => exact ⟨a, rfl, h⟩

/-- Texts that begin a token. -/
def Starts (txt : Text) : Prop := ∃ c r, txt = c :: r ∧ isSpace c = false ∧ c ≠ '$' ∧ c ≠ '\''

theorem Special.starts {c : Char} (h : Special c) (r : Text) : Starts (c :: r) := ⟨c, r, rfl, h.1, h.2.2.2.2.1, h.2.2.2.1⟩

theorem nameCh_starts {c : Char} (h : NameCh c) (r : Text) : Starts (c :: r) :=
  ⟨c, r, rfl, nameCh_not_space h, nameCh_ne h (by decide), nameCh_ne h (by decide)⟩

theorem simple_tok : ∀ p ∈ simple, p.2 ≠ .bad ∧ p.2 ≠ .eoe := by decide
theorem longer_tok : ∀ p ∈ longer, p.2.1 ≠ .bad ∧ p.2.1 ≠ .eoe := by decide
theorem pairs_tok : ∀ p ∈ pairs, p.2.2 ≠ .bad ∧ p.2.2 ≠ .eoe := by decide
theorem keywords_tok : ∀ p ∈ keywords, p.2 ≠ .bad ∧ p.2 ≠ .eoe := by decide

theorem scalar_checkName {c : Char} {w : Text} (hc : ¬ Digit c) (hw : ∀ x ∈ c :: w, NameCh x) (hl : w.length ≤ 19) :
    checkName .scalars (c :: w) = true ↔ ScalarName (c :: w) := by
  have h1 : nameHeadOk .scalars c = true ↔ Lower c ∨ c = '_' := by
    simp [nameHeadOk, isLetterFor, isLowerC, Lower]
  have h2 : ∀ x ∈ w, (nameTailOk .scalars x = true ↔ Lower x ∨ Digit x ∨ x = '_') := by
    intro x hx
    have hne : x ≠ '#' := nameCh_ne (hw x (by simp [hx])) (by decide)
    simp [nameTailOk, isLetterFor, isLowerC, Lower, isDigitC, Digit, hne, or_assoc]
  simp only [checkName, Bool.and_eq_true, List.all_eq_true, decide_eq_true_eq, List.length_cons]
  constructor
  · rintro ⟨⟨⟨_, a⟩, b⟩, _⟩ x hx
    rcases List.mem_cons.1 hx with rfl | hx
    · rcases h1.1 a with h | h
      · exact .inl h
      · exact .inr (.inr h)
    · exact (h2 x hx).1 (b x hx)
  · intro h
    refine ⟨⟨⟨by omega, h1.2 ?_⟩, fun x hx => (h2 x hx).2 (h x (by simp [hx]))⟩, hl⟩
    rcases h c (by simp) with h | h | h
    · exact .inl h
    · exact absurd h hc
    · exact .inr h

theorem scalarName_nameCh {w : Text} (h : ScalarName w) : ∀ x ∈ w, NameCh x := by
  intro x hx
  rcases h x hx with h | h | h
  · exact .inr (.inl h)
  · exact .inr (.inr (.inl h))
  · exact .inr (.inr (.inr h))

theorem item_token (E : LexEnv) {txt rest : Text} {tok : RTok} (h : Item E.rnd txt tok rest) (hcr : NoCr rest) :
    Starts txt ∧ (tok ≠ .bad ∧ tok ≠ .eoe) ∧ (Yy.read (txt ++ rest)).1 ≠ .comment ∧
      ∃ s', token E (classify lecTable (Yy.read (txt ++ rest))) = .ok (some tok, s') ∧
        (s' = rest ∨ s' = skipSpaces rest) := by
  cases h with
  | @simple c tok rest hm =>
    obtain ⟨h1, h2⟩ := simple_keys _ hm
    obtain ⟨⟨d, es⟩, ho, hq⟩ := any_some h2
    simp only [Bool.and_eq_true, decide_eq_true_eq, List.all_eq_true] at hq
    obtain ⟨s', hf, hs'⟩ := findOper_single ho (s := rest) (by
      intro ch hch e he heq
      have := hq.2 e he
      rw [heq] at this
      cases this
      exact absurd (skip_head hch) (by decide))
    have hr := read_special h1 rest
    refine ⟨h1.starts _, simple_tok _ hm, by simp [hr], s', ?_, hs'⟩
    rw [List.singleton_append, classify_special hr hf, token, hq.1]
  | divide h1 h2 =>
    obtain ⟨s', hf, hs'⟩ := findOper_single slash_key (s := rest) (by simp)
    have hr := read_slash h1 h2
    refine ⟨⟨_, _, rfl, by decide, by decide, by decide⟩, by decide, by simp [hr], s', ?_, hs'⟩
    rw [List.singleton_append, classify_special hr hf, token]
  | @longer c tok ext rest hm hn =>
    obtain ⟨h1, h2⟩ := longer_keys _ hm
    obtain ⟨⟨d, es⟩, ho, hq⟩ := any_some h2
    simp only [Bool.and_eq_true, decide_eq_true_eq, List.all_eq_true] at hq
    obtain ⟨s', hf, hs'⟩ := findOper_single ho (s := rest) (by
      intro ch hch e he heq
      have := hq.2 e he
      rw [heq] at this
      rw [next_eq hcr] at hch
      simp only [Option.any_some, List.contains_iff_mem] at this
      exact hn ch hch this)
    have hr := read_special h1 rest
    refine ⟨h1.starts _, longer_tok _ hm, by simp [hr], s', ?_, hs'⟩
    rw [List.singleton_append, classify_special hr hf, token, hq.1]
  | @pair c w d tok rest hm hw =>
    obtain ⟨h1, hd, h2⟩ := pair_keys _ hm
    obtain ⟨⟨k, es⟩, ho, hq⟩ := any_some h2
    simp only [decide_eq_true_eq] at hq
    have hr := read_special h1 (w ++ d :: rest)
    have e : c :: (w ++ [d]) ++ rest = c :: (w ++ d :: rest) := by simp
    have hsk : skipSpaces (w ++ d :: rest) = d :: rest := by
      rw [skipSpaces_append fun x hx => isSpace_of_white (hw x hx), skipSpaces_stop hd.1]
    refine ⟨h1.starts _, pairs_tok _ hm, by rw [e, hr]; simp, rest, ?_, .inl rfl⟩
    rw [e, classify_special hr (findOper_pair ho hq hsk), token]
  | @keyword w tok rest hm hend =>
    obtain ⟨h1, h2, h3, h4⟩ := table_keywords _ hm
    cases hw : w.toList with
    | nil => simp only at h3; rw [hw] at h3; exact absurd rfl h3
    | cons c r =>
      simp only at h1 h2 h4
      rw [hw] at h1 h2 h4
      have hc : Lower c := h4 c rfl
      have hall : ∀ x ∈ c :: r, NameCh x := fun x hx => by
        rcases h2 x hx with h | h
        · exact .inr (.inl h)
        · exact .inr (.inr (.inl h))
      have hnd : ¬ Digit c := by
        intro h
        have := h.2; have := hc.1
        omega
      have hr := read_word hnd hall hend
      refine ⟨nameCh_starts (hall c (by simp)) _, keywords_tok _ hm, by rw [List.cons_append, hr]; simp, rest, ?_, .inl rfl⟩
      rw [List.cons_append, hr, classify]
      simp only [h1, token]
  | @coef c w rest hc hs hl hk hend =>
    have hall := scalarName_nameCh hs
    have hr := read_word hc hall hend
    refine ⟨nameCh_starts (hall c (by simp)) _, by simp, by rw [List.cons_append, hr]; simp, rest, ?_, .inl rfl⟩
    rw [List.cons_append, hr, classify]
    simp only [findWord_none hall hk, token]
    rw [wordTok, if_pos ((scalar_checkName hc hall hl).2 hs), List.take_of_length_le (by simp; omega)]
  | @var c w rest hc hall hns hl hend =>
    have hr := read_word hc hall hend
    have hk : ∀ k ∈ keywords, k.1.toList ≠ c :: w := by
      intro k hk e
      refine hns fun x hx => ?_
      rw [← e] at hx
      rcases (table_keywords k hk).2.1 x hx with h | h
      · exact .inl h
      · exact .inr (.inl h)
    refine ⟨nameCh_starts (hall c (by simp)) _, by simp, by rw [List.cons_append, hr]; simp, rest, ?_, .inl rfl⟩
    rw [List.cons_append, hr, classify]
    simp only [findWord_none hall hk, token]
    rw [wordTok, if_neg (fun h => hns ((scalar_checkName hc hall hl).1 h)), List.take_of_length_le (by simp; omega)]
  | @long d rest hd hne hl hend hper =>
    have hr := read_long hd hne hl hend
    have hst : Starts txt := by
      cases txt with
      | nil => exact absurd rfl hne
      | cons c r => exact nameCh_starts (digit_nameCh (hd c (by simp))) _
    refine ⟨hst, by simp, by rw [hr]; simp, rest, ?_, .inl rfl⟩
    rw [hr, classify]
    simp only [token]
    cases rest with
    | nil => simp [getInt, natOf_eq]
    | cons c r => simp only [getInt, per_none (hper c rfl), natOf_eq]
  | @period y c st rest hy hne hyl hc hst hstl h1 h2 hend =>
    obtain ⟨p1, p2, p3, p4⟩ := per_some c hc
    have hr : Yy.read (y ++ c :: st ++ rest) = (.long y, c :: (st ++ rest)) := by
      rw [List.append_assoc, List.cons_append]
      refine read_long hy hne hyl ?_
      intro x hx
      cases hx
      exact ⟨p3, p4⟩
    have hst0 : st ≠ [] := by
      rintro rfl
      simp [dec] at h1
    have hr2 := read_long hst hst0 hstl hend
    have hS : Starts (y ++ c :: st) := by
      cases y with
      | nil => exact absurd rfl hne
      | cons a r => exact nameCh_starts (digit_nameCh (hy a (by simp))) _
    refine ⟨hS, by simp, by rw [hr]; simp, rest, ?_, .inl rfl⟩
    rw [hr, classify]
    simp only [token, getInt, p1, hr2, getStep]
    rw [if_pos (by rw [natOf_eq]; omega)]
    simp only [natOf_eq, fullYear_eq, p2]
  | @real d q rest hd hl hend =>
    obtain ⟨d', e1, e2, hr⟩ := read_decimal hd hend
    have hS : Starts txt := by
      cases hd with
      | @whole i x e hi hne hx _ =>
        cases i with
        | nil => exact absurd rfl hne
        | cons c r => exact nameCh_starts (digit_nameCh (hi c (by simp))) _
      | @point i f x e hi hf hne hx =>
        cases i with
        | nil => exact ⟨_, _, rfl, by decide, by decide, by decide⟩
        | cons c r => exact nameCh_starts (digit_nameCh (hi c (by simp))) _
    refine ⟨hS, by simp, by rw [hr]; simp, rest, ?_, .inl rfl⟩
    rw [hr, classify]
    simp only [token]
    rw [if_pos (by omega), e2]

/-! ## Gaps -/

theorem comment_body {b : Text} (h : NoEnd b) (s : Text) : comment (b ++ '*' :: '/' :: s) = (.comment, s) := by
  induction b with
  | nil => rw [List.nil_append, comment.eq_def]; simp
  | cons c r ih =>
    have ih := ih h.2
    rw [List.cons_append, comment.eq_def]
    simp only
    split
    · rename_i hc
      split
      · rename_i r' heq
        cases r with
        | nil => simp only [List.nil_append, List.cons.injEq] at heq; exact absurd heq.1 (by decide)
        | cons d r =>
          simp only [List.cons_append, List.cons.injEq] at heq
          exact absurd ⟨hc, by rw [heq.1]; rfl⟩ h.1
      · exact ih
    · exact ih

theorem skipToEol_body {b : Text} (h : ∀ c ∈ b, c.toNat ≠ 10) (s : Text) : skipToEol (b ++ '\n' :: s) = s := by
  induction b with
  | nil => rw [List.nil_append, skipToEol, if_pos (by decide)]
  | cons c r ih =>
    rw [List.cons_append, skipToEol, if_neg (h c (by simp)), ih fun c hc => h c (by simp [hc])]

theorem skipToEol_end {b : Text} (h : ∀ c ∈ b, c.toNat ≠ 10) : skipToEol b = [] := by
  induction b with
  | nil => rfl
  | cons c r ih => rw [skipToEol, if_neg (h c (by simp)), ih fun c hc => h c (by simp [hc])]

theorem read_block (s : Text) : Yy.read ('/' :: '*' :: s) = comment s := by
  rw [Yy.read, skipSpaces_stop (by decide)]
  simp

theorem read_line (s : Text) : Yy.read ('/' :: '/' :: s) = (.comment, skipToEol s) := by
  rw [Yy.read, skipSpaces_stop (by decide)]
  simp

theorem lex_gap {g : Text} (h : Gap g) : ∀ (n : Nat) (s : Text), g.length < n →
    ∃ m, n ≤ m + 1 + g.length ∧ lex lecTable n (g ++ s) = lex lecTable (m + 1) s := by
  induction h with
  | nil =>
    intro n s hn
    obtain ⟨k, rfl⟩ : ∃ k, n = k + 1 := ⟨n - 1, by simp at hn; omega⟩
    exact ⟨k, by omega, rfl⟩
  | @white c g hc _ ih =>
    intro n s hn
    simp only [List.length_cons] at hn
    obtain ⟨m, h1, h2⟩ := ih n s (by omega)
    obtain ⟨k, rfl⟩ : ∃ k, n = k + 1 := ⟨n - 1, by omega⟩
    refine ⟨m, by simp only [List.length_cons]; omega, ?_⟩
    rw [List.cons_append, lex_space lecTable (isSpace_of_white hc), h2]
  | @block b g hb _ ih =>
    intro n s hn
    simp only [List.length_cons, List.length_append] at hn
    obtain ⟨k, rfl⟩ : ∃ k, n = k + 1 := ⟨n - 1, by omega⟩
    obtain ⟨m, h1, h2⟩ := ih k s (by omega)
    refine ⟨m, by simp only [List.length_cons, List.length_append]; omega, ?_⟩
    rw [List.cons_append, List.cons_append, lex, read_block, List.append_assoc]
    rw [List.cons_append, List.cons_append, comment_body hb]
    simp only
    rw [if_pos trivial, h2]
  | @line b g hb _ ih =>
    intro n s hn
    simp only [List.length_cons, List.length_append] at hn
    obtain ⟨k, rfl⟩ : ∃ k, n = k + 1 := ⟨n - 1, by omega⟩
    obtain ⟨m, h1, h2⟩ := ih k s (by omega)
    refine ⟨m, by simp only [List.length_cons, List.length_append]; omega, ?_⟩
    rw [List.cons_append, List.cons_append, lex, read_line, List.append_assoc, List.cons_append, skipToEol_body hb]
    simp only
    rw [if_pos trivial, h2]

/-- The rest of a text does not begin with white space, `$` or a quote. -/
def Ready (x : Text) : Prop := x = [] ∨ Starts x

theorem gap_skip {g : Text} (h : Gap g) {x : Text} (hx : Ready x) :
    ∃ g', Gap g' ∧ skipSpaces (g ++ x) = g' ++ x ∧ Ready (g' ++ x) := by
  have slash : ∀ r, Starts ('/' :: r) := fun r => ⟨_, _, rfl, by decide, by decide, by decide⟩
  induction h with
  | nil =>
    refine ⟨[], .nil, ?_, hx⟩
    rcases hx with rfl | ⟨c, r, rfl, h, _⟩
    · rfl
    · exact skipSpaces_stop h r
  | @white c g hc _ ih =>
    obtain ⟨g', h1, h2, h3⟩ := ih
    exact ⟨g', h1, by rw [List.cons_append, skipSpaces_cons (isSpace_of_white hc), h2], h3⟩
  | @block b g hb hg _ =>
    exact ⟨_, .block hb hg, skipSpaces_stop (by decide) _, .inr (slash _)⟩
  | @line b g hb hg _ =>
    exact ⟨_, .line hb hg, skipSpaces_stop (by decide) _, .inr (slash _)⟩

theorem getToken_ready (E : LexEnv) (ls : List (Name × Text)) {s x : Text} (h : skipSpaces s = x) (hx : Ready x) :
    getToken E ⟨ls, s⟩ = lexTok E ls x := by
  rw [getToken]
  simp only [h]
  rcases hx with rfl | ⟨c, r, rfl, h1, h2, h3⟩
  · rfl
  · simp only
    rw [if_neg h2, if_neg h3]

theorem getToken_gap (E : LexEnv) (ls : List (Name × Text)) {g x : Text} (hg : Gap g) (hx : Ready x) :
    ∃ m, x.length ≤ m ∧ getToken E ⟨ls, g ++ x⟩ =
      (token E (lex lecTable (m + 1) x)).bind fun r => .ok (r.1, ⟨ls, r.2⟩) := by
  obtain ⟨g', h1, h2, h3⟩ := gap_skip hg hx
  obtain ⟨m, h4, h5⟩ := lex_gap h1 ((g' ++ x).length + 1) x (by simp; omega)
  refine ⟨m, by simp at h4; omega, ?_⟩
  rw [getToken_ready E ls h2 h3, lexTok, h5]

theorem NoCr.drop {s : Text} (h : NoCr s) : NoCr (skipSpaces s) :=
  fun c hc => h c ((List.dropWhile_sublist _).subset hc)

theorem NoCr.right {a s : Text} (h : NoCr (a ++ s)) : NoCr s := fun c hc => h c (by simp [hc])

theorem laid_skip (E : LexEnv) {ts : List RTok} {s : Text} (h : Laid E.rnd ts s) (hcr : NoCr s) :
    Laid E.rnd ts (skipSpaces s) := by
  cases h with
  | nil hg =>
    obtain ⟨g', h1, h2, _⟩ := gap_skip hg (.inl rfl)
    rw [List.append_nil, List.append_nil] at h2
    rw [h2]
    exact .nil h1
  | @last g b hg hb =>
    obtain ⟨g', h1, h2, _⟩ := gap_skip hg (x := '/' :: '/' :: b) (.inr ⟨_, _, rfl, by decide, by decide, by decide⟩)
    rw [h2]
    exact .last h1 hb
  | stop hg =>
    obtain ⟨g', h1, h2, _⟩ := gap_skip hg (.inr (eoe_key.2.starts _))
    rw [h2]
    exact .stop h1
  | @cons g txt tok ts s hg hi hl =>
    obtain ⟨⟨c, r, rfl, hS⟩, _⟩ := item_token E hi hcr.right.right
    obtain ⟨g', h1, h2, _⟩ := gap_skip hg (x := c :: r ++ s) (.inr ⟨c, r ++ s, rfl, hS⟩)
    rw [h2]
    exact .cons h1 hi hl

/-- The tokens of a text laid out as tokens and gaps. -/
theorem laid_lex (E : LexEnv) (ls : List (Name × Text)) {ts : List RTok} : ∀ {s : Text}, Laid E.rnd ts s → NoCr s →
    ∀ n, ts.length < n → lexAll E n ⟨ls, s⟩ = .done ts ls := by
  have fin : ∀ {s : Text} {m : Nat}, lex lecTable (m + 1) s = (.raw .eof, []) →
      (token E (lex lecTable (m + 1) s)).bind (fun r => .ok (r.1, LexState.mk ls r.2)) = .ok (none, ⟨ls, []⟩) := by
    intro s m h
    rw [h]; rfl
  have e0 : ∀ m, lex lecTable (m + 1) [] = (.raw .eof, []) := fun m => rfl
  induction ts with
  | nil =>
    intro s h hcr n hn
    obtain ⟨k, rfl⟩ : ∃ k, n = k + 1 := ⟨n - 1, by simp at hn; omega⟩
    rw [lexAll]
    cases h with
    | nil hg =>
      obtain ⟨m, _, h2⟩ := getToken_gap E ls hg (x := []) (.inl rfl)
      rw [List.append_nil, fin (e0 m)] at h2
      rw [h2]
    | @last g b hg hb =>
      obtain ⟨m, h1, h2⟩ := getToken_gap E ls hg (x := '/' :: '/' :: b) (.inr ⟨_, _, rfl, by decide, by decide, by decide⟩)
      obtain ⟨j, rfl⟩ : ∃ j, m = j + 1 := ⟨m - 1, by simp at h1; omega⟩
      have : lex lecTable (j + 1 + 1) ('/' :: '/' :: b) = (.raw .eof, []) := by
        rw [lex, read_line, skipToEol_end hb]
        simp only
        rw [if_pos trivial, e0]
      rw [fin this] at h2
      rw [h2]
  | cons t ts ih =>
    intro s h hcr n hn
    obtain ⟨k, rfl⟩ : ∃ k, n = k + 1 := ⟨n - 1, by simp at hn; omega⟩
    rw [lexAll]
    cases h with
    | @stop g s hg =>
      obtain ⟨m, _, h2⟩ := getToken_gap E ls hg (x := ';' :: s) (.inr (eoe_key.2.starts _))
      have : lex lecTable (m + 1) (';' :: s) = (.key .eoe, s) := by
        rw [lex, read_special eoe_key.2]
        simp only
        rw [if_neg (by simp), classify]
        simp only [findOper, eoe_key.1]
      rw [this] at h2
      simp only [token, Res.bind] at h2
      rw [h2]
      simp only
      rw [if_pos (.inr trivial)]
    | @cons g txt tok ts s hg hi hl =>
      have hcr' := hcr.right.right
      obtain ⟨⟨c, r, rfl, hS⟩, ht, hnc, s', htok, hs'⟩ := item_token E hi hcr'
      obtain ⟨m, _, h2⟩ := getToken_gap E ls hg (x := c :: r ++ s) (.inr ⟨c, r ++ s, rfl, hS⟩)
      rw [lex, if_neg hnc, htok] at h2
      simp only [Res.bind] at h2
      rw [h2]
      simp only
      rw [if_neg (by simp [ht.1, ht.2])]
      have : lexAll E k ⟨ls, s'⟩ = .done ts ls := by
        rcases hs' with rfl | rfl
        · exact ih hl hcr' k (by simp at hn; omega)
        · exact ih (laid_skip E hl hcr') hcr'.drop k (by simp at hn; omega)
      rw [this, LexOut.cons]

/-! ## Tabs and returns -/

/-- Characters that the file delivers. -/
def Clean (s : Text) : Prop := ∀ c ∈ s, c.toNat ≠ 0 ∧ c.toNat ≠ 13 ∧ c.toNat ≠ 26

theorem Clean.left {a s : Text} (h : Clean (a ++ s)) : Clean a := fun c hc => h c (by simp [hc])
theorem Clean.right {a s : Text} (h : Clean (a ++ s)) : Clean s := fun c hc => h c (by simp [hc])
theorem Clean.tail {c : Char} {s : Text} (h : Clean (c :: s)) : Clean s := fun x hx => h x (by simp [hx])

/-- The characters of the text of a formula that are looked at. -/
def kept (c : Char) : Bool := decide (c.toNat ≠ 13 ∧ c.toNat ≠ 26)

theorem expand_kept (col : Nat) (s : Text) : expand col s = expand col (s.filter kept) := by
  induction s generalizing col with
  | nil => rfl
  | cons c r ih =>
    by_cases h : c.toNat = 13 ∨ c.toNat = 26
    · have hk : kept c = false := by simp only [kept, decide_eq_false_iff_not]; omega
      rw [List.filter_cons_of_neg (by simp [hk]), expand, if_neg (by omega), if_neg (by omega), if_neg (by omega), if_pos, ih]
      simp only [Bool.or_eq_true, decide_eq_true_eq]
      omega
    · have hk : kept c = true := by simp only [kept, decide_eq_true_eq]; omega
      rw [List.filter_cons_of_pos hk, expand, expand]
      split
      · rfl
      · split
        · rw [ih]
        · split
          · rw [ih]
          · split
            · exact ih _
            · rw [ih]

theorem expand_tab {c : Char} (h : c.toNat = 9) (col : Nat) (s : Text) :
    expand col (c :: s) = List.replicate (8 - col % 8) ' ' ++ expand (col + 1 + (7 - col % 8)) s := by
  rw [expand, if_neg (by omega), if_pos h]

/-- Characters that the file delivers as they are. -/
def PlainCh (c : Char) : Prop := c.toNat ≠ 0 ∧ c.toNat ≠ 9 ∧ c.toNat ≠ 13 ∧ c.toNat ≠ 26

instance (c : Char) : Decidable (PlainCh c) := inferInstanceAs (Decidable (_ ∧ _))

theorem expand_plain {c : Char} (h : PlainCh c) (col : Nat) : ∃ col', ∀ s, expand col (c :: s) = c :: expand col' s := by
  obtain ⟨h1, h2, h3, h4⟩ := h
  by_cases h5 : c.toNat = 10
  · exact ⟨0, fun s => by rw [expand, if_neg h1, if_neg h2, if_pos h5]⟩
  · refine ⟨col + 1, fun s => ?_⟩
    rw [expand, if_neg h1, if_neg h2, if_neg h5, if_neg]
    simp only [Bool.or_eq_true, decide_eq_true_eq]
    omega

theorem expand_plains {t : Text} (h : ∀ c ∈ t, PlainCh c) (col : Nat) : ∃ col', ∀ s, expand col (t ++ s) = t ++ expand col' s := by
  induction t generalizing col with
  | nil => exact ⟨col, fun s => rfl⟩
  | cons c r ih =>
    obtain ⟨c1, h1⟩ := expand_plain (h c (by simp)) col
    obtain ⟨c2, h2⟩ := ih (fun c hc => h c (by simp [hc])) c1
    exact ⟨c2, fun s => by rw [List.cons_append, h1, h2, List.cons_append]⟩

theorem gap_blanks {g : Text} (h : Gap g) (n : Nat) : Gap (List.replicate n ' ' ++ g) := by
  induction n with
  | zero => exact h
  | succ n ih => rw [List.replicate_succ]; exact .white (.inl (by decide)) ih

theorem noEnd_blanks {b : Text} (h : NoEnd b) (n : Nat) : NoEnd (List.replicate n ' ' ++ b) := by
  induction n with
  | zero => exact h
  | succ n ih => rw [List.replicate_succ]; exact ⟨by simp, ih⟩

theorem head_replicate (col : Nat) (s : Text) : (List.replicate (8 - col % 8) ' ' ++ s).head? = some ' ' := by
  obtain ⟨k, hk⟩ : ∃ k, 8 - col % 8 = k + 1 := ⟨7 - col % 8, by omega⟩
  rw [hk]
  rfl

theorem plain_of {c : Char} (h : c.toNat ≠ 0 ∧ c.toNat ≠ 13 ∧ c.toNat ≠ 26) (h9 : c.toNat ≠ 9) : PlainCh c :=
  ⟨h.1, h9, h.2.1, h.2.2⟩

theorem expand_body {b : Text} (h : NoEnd b) (hc : Clean b) (col : Nat) :
    ∃ b' col', NoEnd b' ∧ (b'.head? = some '/' → b.head? = some '/') ∧ ∀ s, expand col (b ++ s) = b' ++ expand col' s := by
  induction b generalizing col with
  | nil => exact ⟨[], col, trivial, fun h => h, fun s => rfl⟩
  | cons c r ih =>
    by_cases h9 : c.toNat = 9
    · obtain ⟨b', col', h1, _, h3⟩ := ih h.2 hc.tail (col + 1 + (7 - col % 8))
      refine ⟨List.replicate (8 - col % 8) ' ' ++ b', col', noEnd_blanks h1 _, ?_, fun s => ?_⟩
      · rw [head_replicate]; intro h; simp at h
      · rw [List.cons_append, expand_tab h9, h3, List.append_assoc]
    · obtain ⟨c1, hp⟩ := expand_plain (plain_of (hc c (by simp)) h9) col
      obtain ⟨b', col', h1, h2, h3⟩ := ih h.2 hc.tail c1
      refine ⟨c :: b', col', ⟨fun hx => h.1 ⟨hx.1, h2 hx.2⟩, h1⟩, fun h => h, fun s => ?_⟩
      rw [List.cons_append, hp, h3, List.cons_append]

theorem expand_line {b : Text} (h : ∀ c ∈ b, c.toNat ≠ 10) (hc : Clean b) (col : Nat) :
    ∃ b' col', (∀ c ∈ b', c.toNat ≠ 10) ∧ ∀ s, expand col (b ++ s) = b' ++ expand col' s := by
  induction b generalizing col with
  | nil => exact ⟨[], col, by simp, fun s => rfl⟩
  | cons c r ih =>
    by_cases h9 : c.toNat = 9
    · obtain ⟨b', col', h1, h3⟩ := ih (fun c hc => h c (by simp [hc])) hc.tail (col + 1 + (7 - col % 8))
      refine ⟨List.replicate (8 - col % 8) ' ' ++ b', col', ?_, fun s => ?_⟩
      · intro x hx
        rcases List.mem_append.1 hx with hx | hx
        · rw [(List.mem_replicate.1 hx).2]; decide
        · exact h1 x hx
      · rw [List.cons_append, expand_tab h9, h3, List.append_assoc]
    · obtain ⟨c1, hp⟩ := expand_plain (plain_of (hc c (by simp)) h9) col
      obtain ⟨b', col', h1, h3⟩ := ih (fun c hc => h c (by simp [hc])) hc.tail c1
      refine ⟨c :: b', col', ?_, fun s => ?_⟩
      · intro x hx
        rcases List.mem_cons.1 hx with rfl | hx
        · exact h x (by simp)
        · exact h1 x hx
      · rw [List.cons_append, hp, h3, List.cons_append]

theorem expand_gap {g : Text} (h : Gap g) (hc : Clean g) (col : Nat) :
    ∃ g' col', Gap g' ∧ ∀ s, expand col (g ++ s) = g' ++ expand col' s := by
  induction h generalizing col with
  | nil => exact ⟨[], col, .nil, fun s => rfl⟩
  | @white c g hw _ ih =>
    by_cases h9 : c.toNat = 9
    · obtain ⟨g', col', h1, h2⟩ := ih hc.tail (col + 1 + (7 - col % 8))
      refine ⟨_, col', gap_blanks h1 (8 - col % 8), fun s => ?_⟩
      rw [List.cons_append, expand_tab h9, h2, List.append_assoc]
    · obtain ⟨c1, hp⟩ := expand_plain (plain_of (hc c (by simp)) h9) col
      obtain ⟨g', col', h1, h2⟩ := ih hc.tail c1
      exact ⟨_, col', .white hw h1, fun s => by rw [List.cons_append, hp, h2, List.cons_append]⟩
  | @block b g hb _ ih =>
    obtain ⟨c1, e1⟩ := expand_plains (t := ['/', '*']) (by decide) col
    obtain ⟨b', c2, hb', _, e2⟩ := expand_body hb hc.tail.tail.left c1
    obtain ⟨c3, e3⟩ := expand_plains (t := ['*', '/']) (by decide) c2
    obtain ⟨g', c4, h1, e4⟩ := ih hc.tail.tail.right.tail.tail c3
    refine ⟨_, c4, .block hb' h1, fun s => ?_⟩
    have a : '/' :: '*' :: (b ++ '*' :: '/' :: g) ++ s = ['/', '*'] ++ (b ++ (['*', '/'] ++ (g ++ s))) := by simp
    rw [a, e1, e2, e3, e4]
    simp
  | @line b g hb _ ih =>
    obtain ⟨c1, e1⟩ := expand_plains (t := ['/', '/']) (by decide) col
    obtain ⟨b', c2, hb', e2⟩ := expand_line hb hc.tail.tail.left c1
    obtain ⟨c3, e3⟩ := expand_plains (t := ['\n']) (by decide) c2
    obtain ⟨g', c4, h1, e4⟩ := ih hc.tail.tail.right.tail c3
    refine ⟨_, c4, .line hb' h1, fun s => ?_⟩
    have a : '/' :: '/' :: (b ++ '\n' :: g) ++ s = ['/', '/'] ++ (b ++ (['\n'] ++ (g ++ s))) := by simp
    rw [a, e1, e2, e3, e4]
    simp

theorem expand_white {w : Text} (h : ∀ x ∈ w, White x) (hc : Clean w) (col : Nat) :
    ∃ w' col', (∀ x ∈ w', White x) ∧ ∀ s, expand col (w ++ s) = w' ++ expand col' s := by
  induction w generalizing col with
  | nil => exact ⟨[], col, by simp, fun s => rfl⟩
  | cons c r ih =>
    by_cases h9 : c.toNat = 9
    · obtain ⟨b', col', h1, h3⟩ := ih (fun c hc => h c (by simp [hc])) hc.tail (col + 1 + (7 - col % 8))
      refine ⟨List.replicate (8 - col % 8) ' ' ++ b', col', ?_, fun s => ?_⟩
      · intro x hx
        rcases List.mem_append.1 hx with hx | hx
        · rw [(List.mem_replicate.1 hx).2]; decide
        · exact h1 x hx
      · rw [List.cons_append, expand_tab h9, h3, List.append_assoc]
    · obtain ⟨c1, hp⟩ := expand_plain (plain_of (hc c (by simp)) h9) col
      obtain ⟨b', col', h1, h3⟩ := ih (fun c hc => h c (by simp [hc])) hc.tail c1
      refine ⟨c :: b', col', ?_, fun s => ?_⟩
      · intro x hx
        rcases List.mem_cons.1 hx with rfl | hx
        · exact h x (by simp)
        · exact h1 x hx
      · rw [List.cons_append, hp, h3, List.cons_append]

theorem expand_head {s : Text} (hc : Clean s) (col : Nat) {c : Char} (h : (expand col s).head? = some c) :
    s.head? = some c ∨ c = ' ' := by
  cases s with
  | nil => cases h
  | cons a r =>
    by_cases h9 : a.toNat = 9
    · rw [expand_tab h9, head_replicate] at h
      cases h
      exact .inr rfl
    · obtain ⟨c1, hp⟩ := expand_plain (plain_of (hc a (by simp)) h9) col
      rw [hp] at h
      exact .inl h

theorem next_blanks (n : Nat) (s : Text) : next (List.replicate n ' ' ++ s) = next s := by
  induction n with
  | zero => rfl
  | succ n ih =>
    rw [List.replicate_succ, List.cons_append, next, List.dropWhile_cons, if_pos (by decide)]
    exact ih

theorem expand_next {s : Text} (hc : Clean s) (col : Nat) : next (expand col s) = next s := by
  induction s generalizing col with
  | nil => rfl
  | cons a r ih =>
    have hw : ∀ x : Text, next (a :: x) = if White a then next x else some a := by
      intro x
      rw [next, List.dropWhile_cons]
      by_cases h : White a <;> simp [h, next]
    by_cases h9 : a.toNat = 9
    · rw [expand_tab h9, next_blanks, ih hc.tail, hw, if_pos (.inr (.inl h9))]
    · obtain ⟨c1, hp⟩ := expand_plain (plain_of (hc a (by simp)) h9) col
      rw [hp, hw, hw, ih hc.tail]

theorem nameCh_plain {c : Char} (h : NameCh c) : PlainCh c := by
  rcases h with h | h | h | h
  · have := h.1; have := h.2; exact ⟨by omega, by omega, by omega, by omega⟩
  · have := h.1; have := h.2; exact ⟨by omega, by omega, by omega, by omega⟩
  · have := h.1; have := h.2; exact ⟨by omega, by omega, by omega, by omega⟩
  · subst h; decide

theorem nameEnd_expand {s : Text} (h : NameEnd s) (hc : Clean s) (col : Nat) : NameEnd (expand col s) := by
  intro c hh
  rcases expand_head hc col hh with h1 | rfl
  · exact h c h1
  · decide

theorem numEnd_expand {s : Text} (h : NumEnd s) (hc : Clean s) (col : Nat) : NumEnd (expand col s) := by
  intro c hh
  rcases expand_head hc col hh with h1 | rfl
  · exact h c h1
  · decide

theorem expo_plain {x : Text} {e : Int} (h : Expo x e) : ∀ c ∈ x, PlainCh c := by
  have hE : ∀ c : Char, c = 'e' ∨ c = 'E' → PlainCh c := by rintro c (rfl | rfl) <;> decide
  have hD : ∀ d : Text, Digits d → ∀ c ∈ d, PlainCh c := fun d hd c hc => nameCh_plain (digit_nameCh (hd c hc))
  intro c hc
  cases h with
  | none => cases hc
  | plain h1 h2 _ =>
    rcases List.mem_cons.1 hc with rfl | hc
    · exact hE _ h1
    · exact hD _ h2 _ hc
  | plus h1 h2 _ =>
    rcases List.mem_cons.1 hc with rfl | hc
    · exact hE _ h1
    · rcases List.mem_cons.1 hc with rfl | hc
      · decide
      · exact hD _ h2 _ hc
  | minus h1 h2 _ =>
    rcases List.mem_cons.1 hc with rfl | hc
    · exact hE _ h1
    · rcases List.mem_cons.1 hc with rfl | hc
      · decide
      · exact hD _ h2 _ hc

theorem decimal_plain {d : Text} {q : Rat} (h : Decimal d q) : ∀ c ∈ d, PlainCh c := by
  have hD : ∀ d : Text, Digits d → ∀ c ∈ d, PlainCh c := fun d hd c hc => nameCh_plain (digit_nameCh (hd c hc))
  intro c hc
  cases h with
  | whole hi _ hx _ =>
    rcases List.mem_append.1 hc with hc | hc
    · exact hD _ hi _ hc
    · exact expo_plain hx _ hc
  | point hi hf _ hx =>
    rcases List.mem_append.1 hc with hc | hc
    · exact hD _ hi _ hc
    · rcases List.mem_cons.1 hc with rfl | hc
      · decide
      · rcases List.mem_append.1 hc with hc | hc
        · exact hD _ hf _ hc
        · exact expo_plain hx _ hc

theorem simple_plain : ∀ p ∈ simple, PlainCh p.1 := by decide
theorem longer_plain : ∀ p ∈ longer, PlainCh p.1 := by decide
theorem pairs_plain : ∀ p ∈ pairs, PlainCh p.1 ∧ PlainCh p.2.1 := by decide
theorem letters_plain : ∀ c ∈ periodLetters, PlainCh c := by decide

/-- A token stays what it is when the tabs around it become blanks. -/
theorem expand_item {rnd : Rat → Rat} {txt s : Text} {tok : RTok} (h : Item rnd txt tok s) (hc : Clean (txt ++ s)) (col : Nat) :
    ∃ txt' col', expand col (txt ++ s) = txt' ++ expand col' s ∧ Item rnd txt' tok (expand col' s) := by
  have hcs := hc.right
  have go : (∀ c ∈ txt, PlainCh c) → (∀ col', Item rnd txt tok (expand col' s)) →
      ∃ txt' col', expand col (txt ++ s) = txt' ++ expand col' s ∧ Item rnd txt' tok (expand col' s) := by
    intro hp hi
    obtain ⟨c1, h1⟩ := expand_plains hp col
    exact ⟨txt, c1, h1 s, hi c1⟩
  have hD : ∀ d : Text, Digits d → ∀ c ∈ d, PlainCh c := fun d hd c hc => nameCh_plain (digit_nameCh (hd c hc))
  cases h with
  | simple hm => exact go (by simpa using simple_plain _ hm) fun c => .simple hm
  | divide h1 h2 =>
    refine go (by decide) fun c => .divide ?_ ?_
    · intro h
      rcases expand_head hcs c h with h | h
      · exact h1 h
      · exact absurd h (by decide)
    · intro h
      rcases expand_head hcs c h with h | h
      · exact h2 h
      · exact absurd h (by decide)
  | longer hm hn =>
    refine go (by simpa using longer_plain _ hm) fun c => .longer hm ?_
    rw [expand_next hcs]
    exact hn
  | @pair c w d tok rest hm hw =>
    obtain ⟨p1, p2⟩ := pairs_plain _ hm
    have hcw : Clean w := fun x hx => hc x (by simp [hx])
    obtain ⟨c1, e1⟩ := expand_plain p1 col
    obtain ⟨w', c2, hw', e2⟩ := expand_white hw hcw c1
    obtain ⟨c3, e3⟩ := expand_plain p2 c2
    refine ⟨c :: (w' ++ [d]), c3, ?_, .pair hm hw'⟩
    rw [show c :: (w ++ [d]) ++ s = c :: (w ++ (d :: s)) by simp, e1, e2, e3]
    simp
  | @keyword w tok rest hm hend =>
    refine go (fun x hx => nameCh_plain ?_) fun c => .keyword hm (nameEnd_expand hend hcs c)
    rcases (table_keywords _ hm).2.1 x hx with h | h
    · exact .inr (.inl h)
    · exact .inr (.inr (.inl h))
  | coef h1 h2 h3 h4 hend =>
    exact go (fun x hx => nameCh_plain (scalarName_nameCh h2 x hx)) fun c => .coef h1 h2 h3 h4 (nameEnd_expand hend hcs c)
  | var h1 h2 h3 h4 hend =>
    exact go (fun x hx => nameCh_plain (h2 x hx)) fun c => .var h1 h2 h3 h4 (nameEnd_expand hend hcs c)
  | long h1 h2 h3 hend hper =>
    refine go (hD _ h1) fun c => .long h1 h2 h3 (numEnd_expand hend hcs c) fun x hx => ?_
    rcases expand_head hcs c hx with h | rfl
    · exact hper x h
    · decide
  | @period y c st rest h1 h2 h3 h4 h5 h6 h7 h8 hend =>
    refine go (fun x hx => ?_) fun c => .period h1 h2 h3 h4 h5 h6 h7 h8 (numEnd_expand hend hcs c)
    rcases List.mem_append.1 hx with hx | hx
    · exact hD _ h1 _ hx
    · rcases List.mem_cons.1 hx with rfl | hx
      · exact letters_plain _ h4
      · exact hD _ h5 _ hx
  | real h1 h2 hend =>
    exact go (decimal_plain h1) fun c => .real h1 h2 (numEnd_expand hend hcs c)

/-- The same for a whole text. -/
theorem laid_expand {rnd : Rat → Rat} {ts : List RTok} {s : Text} (h : Laid rnd ts s) (hc : Clean s) (col : Nat) :
    Laid rnd ts (expand col s) := by
  induction h generalizing col with
  | nil hg =>
    obtain ⟨g', c1, h1, e1⟩ := expand_gap hg hc col
    have := e1 []
    rw [List.append_nil] at this
    rw [this, expand, List.append_nil]
    exact .nil h1
  | @last g b hg hb =>
    obtain ⟨g', c1, h1, e1⟩ := expand_gap hg hc.left col
    obtain ⟨c2, e2⟩ := expand_plains (t := ['/', '/']) (by decide) c1
    obtain ⟨b', c3, hb', e3⟩ := expand_line hb hc.right.tail.tail c2
    have := e3 []
    rw [List.append_nil, expand, List.append_nil] at this
    rw [e1, show '/' :: '/' :: b = ['/', '/'] ++ b from rfl, e2, this]
    exact .last h1 hb'
  | @stop g s hg =>
    obtain ⟨g', c1, h1, e1⟩ := expand_gap hg hc.left col
    obtain ⟨c2, e2⟩ := expand_plain (c := ';') (by decide) c1
    rw [e1, e2]
    exact .stop h1
  | @cons g txt tok ts s hg hi _ ih =>
    obtain ⟨g', c1, h1, e1⟩ := expand_gap hg hc.left col
    obtain ⟨txt', c2, e2, hi'⟩ := expand_item hi hc.right c1
    rw [e1, e2]
    exact .cons h1 hi' (ih hc.right.right c2)

theorem expand_noCr (col : Nat) (s : Text) : NoCr (expand col s) := by
  induction s generalizing col with
  | nil => intro c hc; cases hc
  | cons a r ih =>
    rw [expand]
    split
    · intro c hc; cases hc
    · split
      · intro c hc
        rcases List.mem_append.1 hc with hc | hc
        · rw [(List.mem_replicate.1 hc).2]; decide
        · exact ih _ c hc
      · split
        · rename_i h
          intro c hc
          rcases List.mem_cons.1 hc with rfl | hc
          · omega
          · exact ih _ c hc
        · split
          · exact ih _
          · rename_i h
            simp only [Bool.or_eq_true, decide_eq_true_eq] at h
            intro c hc
            rcases List.mem_cons.1 hc with rfl | hc
            · omega
            · exact ih _ c hc

end Lec
end Iode
