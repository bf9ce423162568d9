import Verif.Lemmas.RepFn
import Verif.Lemmas.Names
import Verif.Props.C62

/-!
# C69: the functions of reports on texts
-/
namespace Iode.RepFn

open Iode.Expand (words)

/-! ## Numbers -/

theorem toInt_id {n : Int} (h1 : -2147483648 ≤ n) (h2 : n ≤ 2147483647) : toInt n = n := by unfold toInt; omega

theorem takeWhile_digits {d r : Text} (hd : ∀ c ∈ d, isDigitC c = true) (hr : ∀ c, r.head? = some c → isDigitC c = false) :
    (d ++ r).takeWhile isDigitC = d := by
  induction d with
  | nil =>
    cases r with
    | nil => rfl
    | cons c r => simp [List.takeWhile_cons, hr c rfl]
  | cons c d ih => simp [List.takeWhile_cons, hd c (by simp), ih fun c hc => hd c (by simp [hc])]

theorem digit_facts {c : Char} (h : isDigitC c = true) : isBlank c = false ∧ c ≠ '-' ∧ c ≠ '+' := by
  have h1 : 48 ≤ c.toNat ∧ c.toNat ≤ 57 := by simpa [isDigitC] using h
  refine ⟨?_, ?_, ?_⟩
  · simp only [isBlank, Bool.or_eq_false_iff, Bool.and_eq_false_iff, decide_eq_false_iff_not]; omega
  · rintro rfl; exact absurd h1.1 (by decide)
  · rintro rfl; exact absurd h1.1 (by decide)

/-- A whole number is read, behind blanks and in front of anything but a digit. -/
theorem C69_number {b : Text} (hb : ∀ c ∈ b, isBlank c = true) {n : Int} (h1 : -2147483648 ≤ n) (h2 : n ≤ 2147483647) {r : Text}
    (hr : ∀ c, r.head? = some c → isDigitC c = false) : number (b ++ intToChars n ++ r) = .ok n := by
  have hnat : ∀ m, ∃ c cs, natToChars m = c :: cs ∧ isDigitC c = true := by
    intro m
    cases h : natToChars m with
    | nil => exact absurd h (natToChars_ne_nil m)
    | cons c cs => exact ⟨c, cs, rfl, natToChars_isDigit m c (by rw [h]; simp)⟩
  have hdrop : ∀ t : Text, (b ++ t).dropWhile isBlank = t.dropWhile isBlank := by
    intro t
    induction b with
    | nil => rfl
    | cons c b ih => rw [List.cons_append, List.dropWhile_cons_of_pos (hb c (by simp))]; exact ih fun c hc => hb c (by simp [hc])
  have hat : atol (b ++ intToChars n ++ r) = .ok n := by
    obtain ⟨c, cs, hc, hdig⟩ := hnat n.natAbs
    obtain ⟨f1, f2, f3⟩ := digit_facts hdig
    unfold atol
    rw [List.append_assoc, hdrop]
    unfold intToChars
    by_cases hn : n < 0
    · rw [if_pos hn, List.cons_append, List.dropWhile_cons_of_neg (by decide)]
      simp only [takeWhile_digits (natToChars_isDigit n.natAbs) hr, digitsVal_natToChars]
      rw [if_pos (by omega)]
      congr 1; omega
    · rw [if_neg hn]
      have h0 : (natToChars n.natAbs ++ r).dropWhile isBlank = c :: (cs ++ r) := by
        rw [hc, List.cons_append, List.dropWhile_cons_of_neg (by simp [f1])]
      have h3 := takeWhile_digits (natToChars_isDigit n.natAbs) hr
      rw [hc, List.cons_append] at h3
      rw [h0]
      simp only
      have : digitsVal 0 ((c :: (cs ++ r)).takeWhile isDigitC) = n.natAbs := by rw [h3, ← hc, digitsVal_natToChars]
      split
      · rename_i h; cases h; exact absurd rfl f2
      · rename_i h; cases h; exact absurd rfl f3
      · rw [this, if_pos (by omega)]
        congr 1; omega
  unfold number
  rw [hat, bind_ok, toInt_id h1 h2]

example : number "  -12 of".toList = .ok (-12) := by
  have e : "  -12 of".toList = [' ', ' '] ++ intToChars (-12) ++ [' ', 'o', 'f'] := by decide +kernel
  rw [e]
  exact C69_number (by decide) (by decide) (by decide) (by decide)

/-! ## `@take` and `@drop` -/

/-- `@take`: the first or the last characters; a text that is too short is filled with blanks. -/
theorem C69_take {a s : Text} {n : Int} (ha : number a = .ok n) (h1 : -2147483647 < n) (h2 : n < 2147483647) :
    ∃ t, take [a, s] = .ok (some t) ∧ t.length = n.natAbs ∧
      (n.natAbs ≤ s.length → (0 ≤ n → t <+: s) ∧ (n ≤ 0 → t <:+ s)) ∧
      (s.length ≤ n.natAbs → (0 < n → t = s ++ List.replicate (n.natAbs - s.length) ' ') ∧ (n < 0 → t = List.replicate (n.natAbs - s.length) ' ' ++ s)) := by
  unfold take
  simp only [ha, bind_ok]
  by_cases hn : n > 0
  · rw [if_pos hn, if_neg (by omega)]
    by_cases hl : n ≥ s.length
    · rw [if_pos hl]
      have e : (n - s.length).toNat = n.natAbs - s.length := by omega
      refine ⟨_, rfl, by simp only [List.length_append, List.length_replicate]; omega, fun h => ⟨fun _ => ?_, fun _ => by omega⟩, fun _ => ⟨fun _ => by rw [e], fun _ => by omega⟩⟩
      rw [e, show n.natAbs - s.length = 0 from by omega]
      simp
    · rw [if_neg hl]
      refine ⟨_, rfl, by rw [List.length_take]; omega, fun h => ⟨fun _ => List.take_prefix _ _, fun _ => by omega⟩, fun _ => by omega⟩
  · rw [if_neg hn, if_neg (by omega)]
    by_cases hl : -n ≥ s.length
    · rw [if_pos hl]
      have e : (-n - s.length).toNat = n.natAbs - s.length := by omega
      refine ⟨_, rfl, by simp only [List.length_append, List.length_replicate]; omega, fun h => ⟨fun h0 => ?_, fun h0 => ?_⟩, fun _ => ⟨fun _ => by omega, fun _ => by rw [e]⟩⟩
      · have : s = [] := List.length_eq_zero_iff.mp (by omega)
        subst this
        rw [e, show n.natAbs - List.length ([] : Text) = 0 from by simp; omega]
        simp
      · rw [e, show n.natAbs - s.length = 0 from by omega]
        simp
    · rw [if_neg hl]
      have e : (s.length - (-n)).toNat = s.length - n.natAbs := by omega
      refine ⟨_, rfl, by rw [List.length_drop]; omega, fun h => ⟨fun h0 => ?_, fun _ => List.drop_suffix _ _⟩, fun _ => by omega⟩
      have : n = 0 := by omega
      subst this
      simp

/-- `@drop`: what is left without the first or the last characters. -/
theorem C69_drop {a s : Text} {n : Int} (ha : number a = .ok n) (hs : s ≠ []) (h1 : -2147483648 < n) :
    ∃ t, drop [a, s] = .ok (some t) ∧ t.length = s.length - n.natAbs ∧ (0 ≤ n → t <:+ s) ∧ (n ≤ 0 → t <+: s) := by
  have hpos : 0 < s.length := List.length_pos_of_ne_nil hs
  unfold drop
  simp only [ha, bind_ok]
  rw [if_neg (by omega)]
  by_cases hn : n > 0
  · rw [if_pos hn]
    by_cases hl : n ≥ s.length
    · rw [if_pos hl]
      exact ⟨[], rfl, by simp; omega, fun _ => by simp, fun _ => by simp⟩
    · rw [if_neg hl]
      exact ⟨_, rfl, by rw [List.length_drop]; omega, fun _ => List.drop_suffix _ _, fun _ => by omega⟩
  · rw [if_neg hn, if_neg (by omega)]
    by_cases hl : -n ≥ s.length
    · rw [if_pos hl]
      exact ⟨[], rfl, by simp; omega, fun _ => by simp, fun _ => by simp⟩
    · rw [if_neg hl]
      refine ⟨_, rfl, by rw [List.length_take]; omega, fun h0 => ?_, fun _ => List.take_prefix _ _⟩
      have : n = 0 := by omega
      subst this
      simp

/-- The two parts of a text. -/
theorem C69_parts {a s : Text} {n : Int} (ha : number a = .ok n) (hs : s ≠ []) (hl : n.natAbs ≤ s.length) (h1 : -2147483647 < n) (h2 : n < 2147483647) :
    ∃ x y, take [a, s] = .ok (some x) ∧ drop [a, s] = .ok (some y) ∧ (0 ≤ n → x ++ y = s) ∧ (n ≤ 0 → y ++ x = s) := by
  obtain ⟨x, hx, lx, px, _⟩ := C69_take (s := s) ha h1 h2
  obtain ⟨y, hy, ly, sy, py⟩ := C69_drop (s := s) ha hs (by omega)
  refine ⟨x, y, hx, hy, fun h => ?_, fun h => ?_⟩
  · obtain ⟨r, hr⟩ := (px hl).1 h
    obtain ⟨q, hq⟩ := sy h
    have e1 := congrArg List.length hr
    have e2 := congrArg List.length hq
    simp only [List.length_append] at e1 e2
    obtain ⟨rfl, rfl⟩ := List.append_inj (hr.trans hq.symm) (by omega)
    exact hr
  · obtain ⟨r, hr⟩ := (px hl).2 h
    obtain ⟨q, hq⟩ := py h
    have e1 := congrArg List.length hr
    have e2 := congrArg List.length hq
    simp only [List.length_append] at e1 e2
    obtain ⟨rfl, rfl⟩ := List.append_inj (hr.trans hq.symm) (by omega)
    exact hr

example : take ["2".toList, "ABCDE".toList] = .ok (some "AB".toList) ∧ drop ["-1".toList, "ABCDE".toList] = .ok (some "ABCD".toList) := by decide +kernel

example : number "-2".toList = .ok (-2) ∧ "ABCDE".toList ≠ [] ∧ (-2 : Int).natAbs ≤ "ABCDE".toList.length := by decide +kernel

/-- A text that is too short is filled (the manual: "extracts the first n characters"); `@drop` of nothing stays in the report; very large
    numbers are undefined. -/
theorem C69_take_counterexample : take ["4".toList, "ab".toList] = .ok (some "ab  ".toList) ∧ drop ["1".toList, []] = .ok none ∧
    (∀ s, take ["2147483647".toList, s] = .ub) := by
  refine ⟨by decide +kernel, by decide +kernel, fun s => ?_⟩
  have : number "2147483647".toList = .ok 2147483647 := by decide +kernel
  unfold take
  simp only [this, bind_ok]
  rfl

/-! ## `@replace` -/

/-- `@replace`: every place of the text is replaced, from left to right. -/
theorem C69_replace (t r : Text) {s : Text} (hs : s ≠ []) : ∃ out, replace [t, s, r] = .ok (some out) ∧ Replaced s r t out ∧
    ∀ out', Replaced s r t out' → out' = out := by
  obtain ⟨out, h1, h2⟩ := areplace_spec hs t r
  refine ⟨out, ?_, h2, fun out' h => replaced_unique h h2⟩
  simp only [replace, h1, bind_ok]

/-- No place, or an empty text: nothing changes. -/
theorem C69_replace_none (t r : Text) {s : Text} (hs : s = [] ∨ ¬ s <:+: t) : replace [t, s, r] = .ok (some t) := by
  by_cases h0 : s = []
  · subst h0
    simp only [replace, areplace_nil, bind_ok]
  · obtain ⟨out, h1, _, h3⟩ := C69_replace t r h0
    rw [h1, h3 t (.stop (hs.resolve_left h0))]

example : replace ["Buro du Buro du Plan".toList, "Buro".toList, "Bureau".toList] = .ok (some "Bureau du Bureau du Plan".toList) := by decide +kernel
example : replace ["AAAAA".toList, "AA".toList, "B".toList] = .ok (some "BBA".toList) := by decide +kernel
example : replace ["abab".toList, "ab".toList, "ba".toList] = .ok (some "baba".toList) := by decide +kernel

/-! ## Blanks -/

theorem mtov_eq (s : Char) : ∀ ws : List Text, mtov s ws = List.intercalate [s] ws
  | [] => rfl
  | [w] => by simp [mtov, List.intercalate]
  | w :: v :: ws => by
    rw [mtov, mtov_eq s (v :: ws)]
    · simp [List.intercalate, List.intersperse]
    · simp

/-- `@sqz` and `@strip` on the arguments with blanks between them: without any blank, or without the characters up to the blank at the end. -/
theorem C69_blanks (args : List Text) : sqz args = .ok (some ((List.intercalate [' '] args).filter (· ≠ ' '))) ∧
    ∃ out e, strip args = .ok (some out) ∧ List.intercalate [' '] args = out ++ e ∧ (∀ c ∈ e, c.toNat ≤ 32) ∧ ∀ c, out.getLast? = some c → 32 < c.toNat := by
  rw [← mtov_eq, sqz, strip]
  generalize mtov ' ' args = t
  have hs : ∀ t : Text, sqzText t = t.filter (· ≠ ' ') := by
    intro t
    induction t with
    | nil => rfl
    | cons c t ih => by_cases h : c = ' ' <;> simp [sqzText, h, ih]
  refine ⟨by rw [hs], stripText t, (t.reverse.takeWhile fun c => decide (c.toNat ≤ 32)).reverse, rfl, ?_, ?_, ?_⟩
  · rw [stripText, ← List.reverse_append, List.takeWhile_append_dropWhile, List.reverse_reverse]
  · intro c hc
    have := List.mem_takeWhile_imp (List.mem_reverse.mp hc)
    simpa using this
  · intro c hc
    rw [stripText, List.getLast?_reverse] at hc
    have := List.head?_dropWhile_not (fun c : Char => decide (c.toNat ≤ 32)) t.reverse
    rw [hc] at this
    simpa using this

example : sqz ["a b ".toList, "c".toList] = .ok (some "abc".toList) ∧ strip [" a b".toList, " \t".toList] = .ok (some " a b".toList) := by decide +kernel

/-- `@upper` and `@lower` on the arguments with blanks between them: letter by letter, nothing but the case of letters changes. -/
theorem C69_case (args : List Text) : ∃ u l, upper args = .ok (some u) ∧ lower args = .ok (some l) ∧
    List.Forall₂ (fun c d => d.toNat = if 97 ≤ c.toNat ∧ c.toNat ≤ 122 then c.toNat - 32 else c.toNat) (List.intercalate [' '] args) u ∧
    List.Forall₂ (fun c d => d.toNat = if 65 ≤ c.toNat ∧ c.toNat ≤ 90 then c.toNat + 32 else c.toNat) (List.intercalate [' '] args) l := by
  refine ⟨_, _, rfl, rfl, ?_, ?_⟩
  · rw [mtov_eq, List.forall₂_map_right_iff, List.forall₂_same]
    exact fun c _ => toNat_toUpperC c
  · rw [mtov_eq, List.forall₂_map_right_iff, List.forall₂_same]
    exact fun c _ => toNat_toLowerC c

/-- `@equal`: 1 for two arguments that are the same, capital letters included, otherwise 0. -/
theorem C69_equal (args : List Text) : (equal args = .ok (some ['1']) ↔ ∃ a, args = [a, a]) ∧
    (equal args = .ok (some ['1']) ∨ equal args = .ok (some ['0'])) := by
  have h01 : (['0'] : Text) ≠ ['1'] := by decide
  match args with
  | [] => exact ⟨by simp [equal], .inr rfl⟩
  | [a] => exact ⟨by simp [equal], .inr rfl⟩
  | [a, b] =>
    by_cases h : a = b
    · subst h; exact ⟨by simp [equal], .inl (by simp [equal])⟩
    · exact ⟨by simp [equal, h, Ne.symm h], .inr (by simp [equal, h])⟩
  | a :: b :: c :: l => exact ⟨by simp [equal], .inr rfl⟩

example : equal ["a".toList, "A".toList] = .ok (some ['0']) ∧ equal ["ab".toList, "ab".toList] = .ok (some ['1']) ∧
    lower ["aB".toList, "C1".toList] = .ok (some "ab c1".toList) := by decide +kernel

/-! ## `@fmt` -/

/-- `@fmt`: the digits at the places of the format. -/
theorem C69_fmt {a f : Text} {n : Nat} (ha : atol a = .ok (n : Int)) (hf : f.length < 512) :
    ∃ out, fmt [a, f] = .ok (some out) ∧ Formatted f (natToChars n) out := by
  have hn : n ≤ 9223372036854775807 := by
    unfold atol at ha
    extract_lets t v at ha
    by_cases h : -9223372036854775808 ≤ v ∧ v ≤ 9223372036854775807
    · rw [if_pos h] at ha
      have : v = (n : Int) := by injection ha
      omega
    · rw [if_neg h] at ha
      cases ha
  refine ⟨(fmtLoop f.reverse (natToChars n).reverse).reverse, ?_, ?_⟩
  · simp only [fmt, ha, bind_ok, fmtLong]
    rw [if_neg (by omega), bind_ok]
    congr 6
    omega
  · exact formatted_loop f (natToChars n) fun h => absurd (natToChars_isDigit n ' ' h) (by decide)

example : fmt ["123".toList, "A00009A".toList] = .ok (some "A00123A".toList) ∧ fmt ["7".toList, "x-9".toList] = .ok (some " -7".toList) := by decide +kernel

example : atol " 123".toList = .ok (123 : Nat) := by decide +kernel

/-- The example of the manual gives `A0123A`; a negative number is formatted modulo 2^64; the format is not used with a third argument; more digits than
    codes are cut. -/
theorem C69_fmt_counterexample : fmt ["123".toList, "A0000A".toList] = .ok (some "A0123A".toList) ∧ fmt ["-1".toList] = .ok (some "551615".toList) ∧
    fmt ["12".toList, "00000".toList, "x".toList] = .ok (some "    12".toList) ∧ fmt ["1234567".toList] = .ok (some "234567".toList) := by decide +kernel

/-! ## `@index` -/

/-- `@index`: the argument at the place; nothing outside. -/
theorem C69_index {a : Text} {l : List Text} {n : Int} (ha : number a = .ok n) (hl : l ≠ []) :
    (∀ i (h : i < l.length), n = i + 1 → index (a :: l) = .ok (some l[i])) ∧ (n < 1 ∨ (l.length : Int) < n → index (a :: l) = .ok (some [])) := by
  cases l with
  | nil => exact absurd rfl hl
  | cons b l =>
    have e : index (a :: b :: l) = if n > (b :: l).length ∨ n < 1 then .ok (some []) else .ok (b :: l)[n.toNat - 1]? := by
      simp only [index, ha, bind_ok]
    rw [e]
    refine ⟨fun i h hi => ?_, fun h => if_pos (by omega)⟩
    rw [if_neg (by omega), show n.toNat - 1 = i from by omega, List.getElem?_eq_getElem h]

example : index ["2".toList, "A".toList, "B".toList] = .ok (some "B".toList) ∧ index ["3".toList, "A".toList, "B".toList] = .ok (some []) := by decide +kernel

/-! ## `@vtake`, `@vdrop`, `@vcount` -/

theorem elements_eq {seps : Text} (hs : seps ≠ []) (args : List Text) : elements seps args = .ok (args.flatMap (words seps)) := by
  cases seps with
  | nil => exact absurd rfl hs
  | cons s seps =>
    unfold elements
    simp only [List.headD_cons]
    rw [vtoms_words _ _ _ (by omega), mtov_words (by simp)]

theorem head_mem {seps : Text} (hs : seps ≠ []) : seps.headD ';' ∈ seps := by
  cases seps with
  | nil => exact absurd rfl hs
  | cons s seps => simp

/-- The elements of the arguments are the words between the separators; those of the result are the first or last `n`. -/
theorem C69_vtake {seps : Text} (hs : seps ≠ []) {args : List Text} {a : Text} {es : List Text} (he : args.flatMap (words seps) = a :: es) {n : Int}
    (ha : number a = .ok n) (hn : -2147483648 < n) : ∃ out, vtake seps args = .ok (some out) ∧
      words seps out = if 0 ≤ n then es.take n.natAbs else es.drop (es.length - n.natAbs) := by
  have hgood : ∀ w ∈ es, w ≠ [] ∧ ∀ c ∈ w, c ∉ seps := by
    intro w hw
    have : w ∈ args.flatMap (words seps) := by rw [he]; simp [hw]
    obtain ⟨t, _, ht⟩ := List.mem_flatMap.mp this
    exact words_good w ht
  have h0 : ¬ args.length < 1 := by
    intro h
    rw [List.length_eq_zero_iff.mp (by omega : args.length = 0)] at he
    cases he
  have key : ∀ l : List Text, l <:+: es → words seps (mtov (seps.headD ';') l) = l := fun l hl => by
    rw [mtov_words (head_mem hs), words_flat fun w hw => hgood w (hl.subset hw)]
  unfold vtake
  rw [if_neg h0, elements_eq hs, bind_ok, he]
  cases es with
  | nil => exact ⟨[], rfl, by rw [words_nil]; simp⟩
  | cons e es =>
    simp only [ha, bind_ok]
    by_cases hp : n > 0
    · rw [if_pos hp, if_pos (by omega)]
      refine ⟨_, rfl, ?_⟩
      rw [key _ (List.take_prefix _ _).isInfix]
      by_cases hl : ((e :: es).length : Int) ≤ n
      · rw [min_eq_left hl, List.take_of_length_le (by omega), List.take_of_length_le (by omega)]
      · rw [min_eq_right (by omega)]; congr 1; omega
    · rw [if_neg hp, if_neg (by omega)]
      refine ⟨_, rfl, ?_⟩
      rw [key _ (List.drop_suffix _ _).isInfix]
      by_cases hz : n = 0
      · subst hz
        simp
      · rw [if_neg (by omega)]
        congr 1
        by_cases hl : ((e :: es).length : Int) ≤ -n
        · rw [min_eq_left hl]; omega
        · rw [min_eq_right (by omega)]; omega

theorem C69_vdrop {seps : Text} (hs : seps ≠ []) {args : List Text} {a : Text} {es : List Text} (he : args.flatMap (words seps) = a :: es) {n : Int}
    (ha : number a = .ok n) : ∃ out, vdrop seps args = .ok (some out) ∧
      words seps out = if 0 ≤ n then es.drop n.natAbs else es.take (es.length - n.natAbs) := by
  have hgood : ∀ w ∈ es, w ≠ [] ∧ ∀ c ∈ w, c ∉ seps := by
    intro w hw
    have : w ∈ args.flatMap (words seps) := by rw [he]; simp [hw]
    obtain ⟨t, _, ht⟩ := List.mem_flatMap.mp this
    exact words_good w ht
  have h0 : ¬ args.length < 1 := by
    intro h
    rw [List.length_eq_zero_iff.mp (by omega : args.length = 0)] at he
    cases he
  have key : ∀ l : List Text, l <:+: es → words seps (mtov (seps.headD ';') l) = l := fun l hl => by
    rw [mtov_words (head_mem hs), words_flat fun w hw => hgood w (hl.subset hw)]
  unfold vdrop
  rw [if_neg h0, elements_eq hs, bind_ok, he]
  cases es with
  | nil => exact ⟨[], rfl, by rw [words_nil]; simp⟩
  | cons e es =>
    simp only [ha, bind_ok]
    by_cases hp : n < 0
    · rw [if_pos hp, if_neg (by omega)]
      refine ⟨_, rfl, ?_⟩
      rw [key _ (List.take_prefix _ _).isInfix]
      congr 1
      omega
    · rw [if_neg hp, if_pos (by omega)]
      refine ⟨_, rfl, ?_⟩
      rw [key _ (List.drop_suffix _ _).isInfix]
      by_cases hl : ((e :: es).length : Int) ≤ n
      · rw [min_eq_left hl, List.drop_of_length_le (by omega), List.drop_of_length_le (by omega)]
      · rw [min_eq_right (by omega)]; congr 1; omega

theorem C69_vcount {seps : Text} (hs : seps ≠ []) (args : List Text) :
    vcount seps args = .ok (some (natToChars (args.flatMap (words seps)).length)) := by
  unfold vcount
  rw [elements_eq hs, bind_ok]

example : vtake (vseps []) ["2".toList, "A B;C".toList, "D".toList] = .ok (some "A;B".toList) ∧
    vdrop (vseps []) ["-3".toList, "A B;C".toList, "D".toList] = .ok (some "A".toList) ∧
    vcount (vseps []) ["A B;C".toList, "D".toList] = .ok (some "4".toList) := by decide +kernel

example : ["2".toList, "A B;C".toList].flatMap (words (vseps [])) = ["2".toList, "A".toList, "B".toList, "C".toList] ∧ number "2".toList = .ok 2 := by decide +kernel

/-- The loop of the manual sees every element of the list, once, in order. -/
theorem C69_loop {seps : Text} (hs : seps ≠ []) (h1 : '1' ∉ seps) : ∀ (es : List Text) (list : Text), es ≠ [] → words seps list = es → ∀ f, es.length ≤ f →
    visit seps f list = .ok es
  | [], _, h, _, _, _ => absurd rfl h
  | e :: es, list, _, he, f, hf => by
    have hone : number ['1'] = .ok 1 := by decide +kernel
    have hargs : [['1'], list].flatMap (words seps) = ['1'] :: e :: es := by
      simp [he, words_last (w := ['1']) (by simp) (by simpa using h1)]
    obtain ⟨x, hx, wx⟩ := C69_vtake hs hargs hone (by decide)
    obtain ⟨y, hy, wy⟩ := C69_vdrop hs hargs hone
    have hx' : x = e := by
      have : vtake seps [['1'], list] = .ok (some e) := by
        unfold vtake
        rw [if_neg (by simp), elements_eq hs, bind_ok, hargs]
        simp only [hone, bind_ok]
        rw [if_pos (by decide)]
        have : (min (((e :: es).length : Nat) : Int) 1).toNat = 1 := by
          rw [min_eq_right (by simp)]; rfl
        rw [this]
        rfl
      rw [this] at hx
      cases hx
      rfl
    simp at wy
    cases f with
    | zero => simp at hf
    | succ f =>
      simp only [visit, hx, hy, bind_ok, Option.getD_some, C69_vcount hs, List.flatMap_cons, List.flatMap_nil, List.append_nil, wy, hx']
      by_cases h0 : es = []
      · subst h0
        rw [if_pos (by decide +kernel)]
      · rw [if_neg, C69_loop hs h1 es y h0 wy f (by simp at hf; omega), bind_ok]
        intro h
        have := congrArg (digitsVal 0) (Option.some.inj h)
        rw [digitsVal_natToChars] at this
        exact h0 (List.length_eq_zero_iff.mp (this.trans (by decide)))

example : visit (vseps []) 3 "BE  FR,NL".toList = .ok ["BE".toList, "FR".toList, "NL".toList] :=
  C69_loop (by decide) (by decide) _ _ (by simp) (by decide +kernel) _ (by decide)

/-- Separators are those of `RP_vseps`: the manual's `@vdrop(-1,A,B,C)` gives `A;B`, not `A,B`; without any element the number is read from a null pointer. -/
theorem C69_vtake_counterexample : vdrop (vseps []) ["-1".toList, "A".toList, "B".toList, "C".toList] = .ok (some "A;B".toList) ∧
    vtake (vseps []) [" ".toList] = .ub ∧ vdrop (vseps []) [";".toList] = .ub := by decide +kernel

/-! ## `@vliste` and `@sliste` -/

/-- The names in the equations that exist. -/
def namesIn (eqs : Name → Option (List Name)) (args : List Text) : List Name := args.flatMap fun a => (eqs (toKey .equations a)).getD []

theorem C69_names (eqs : Name → Option (List Name)) (scal : Bool) {args : List Text} (ha : args ≠ []) :
    ∃ out, vsliste eqs scal args = .ok (some (List.intercalate [';'] out)) ∧
      LstCalc.Firsts (namesIn eqs args) (fun w => checkName .scalars w = scal) out := by
  refine ⟨listEqs eqs scal args [], ?_, ?_⟩
  · unfold vsliste
    rw [if_neg (by simpa using ha), mtov_eq]
  · have := listEqs_firsts eqs scal args [] [] ⟨by simp, by simp⟩
    simpa [namesIn] using this

/-- A name stands once in the list. -/
theorem C69_names_once {l : List Name} {p : Name → Prop} {out : List Name} (h : LstCalc.Firsts l p out) : out.Nodup :=
  h.1.imp fun {a b} (h : _ < _) (e : a = b) => by subst e; exact absurd h (Nat.lt_irrefl _)

/-- An equation `A` with the names `B`, `c1`, `A`, `B` and an equation `B` with `C`, `c1`, `B`. -/
def exEqs (n : Name) : Option (List Name) :=
  if n = ['A'] then some [['B'], ['c', '1'], ['A'], ['B']] else if n = ['B'] then some [['C'], ['c', '1'], ['B']] else none

example : vsliste exEqs false [['A'], ['Z'], ['b']] = .ok (some "B;A;C".toList) ∧ vsliste exEqs true [['A'], ['B']] = .ok (some "c1".toList) := by decide +kernel

/-! ## Calls in the lines of reports -/

/-- A report with these functions. -/
def Uses {σ : Type} (E : Expand.Env σ) (W : World) : Prop := ∀ s f args r, call W f args = .ok r → E.fn s f args = (s, r)

/-- The call in a line is replaced by the value of the function on the words between the parentheses. -/
theorem C69_line {σ : Type} {E : Expand.Env σ} {I : σ → Prop} (hE : E.Std I) {W : World} (hW : Uses E W) {s : σ} (hs : I s) {f : Text} {b : List Expand.Atom}
    (hg : (Expand.Tok.call f b).Good) (hq : '"' ∉ Expand.bodyVal E s b) {v : Text} (hv : call W f (words ['(', ','] (Expand.bodyVal E s b)) = .ok (some v)) :
    Expand.expand E s (Expand.Tok.call f b).text = .ok (s, v) :=
  Expand.C62_call hE hs hg hq (hW _ _ _ _ hv)

/-- A report with the macro `L` and the functions above. -/
def exEnv : Expand.Env Unit where
  look _ x := if x = ['L'] then some "BE FR NL".toList else none
  argv _ := ["rep".toList]
  arg0 _ := 0
  noparse _ := true
  eval _ _ := ((), none)
  fn _ f args := ((), match call ⟨vseps [], exEqs⟩ f args with | .ok r => r | _ => none)

example : Uses exEnv ⟨vseps [], exEqs⟩ := fun s f args r h => by
  show ((), _) = ((), r)
  rw [h]

example : exEnv.Std fun _ => True :=
  fun _ _ => ⟨⟨rfl, Int.le_refl 0, show (0 : Int) < (1 : Nat) by decide⟩, fun _ => trivial, fun _ _ => trivial⟩

example : Expand.expand exEnv () "@vtake(1,%L%)|@vdrop(1,%L%)|@vcount(%L%)|@Take(-2,abc)|@replace(a b,b,cc)|@vliste(A,B)".toList =
    .ok ((), "BE|FR;NL|3|bc|a cc|B;A;C".toList) := by decide +kernel

/-- An empty argument is none: the call stays in the line, unless the argument is between quotes. -/
theorem C69_empty_counterexample : Expand.expand exEnv () "@replace(abc,b,)".toList = .ok ((), "@replace(abc,b,)".toList) ∧
    Expand.expand exEnv () "@replace(abc,b,\"\")".toList = .ok ((), "ac".toList) ∧ Expand.expand exEnv () "@count(a,,b)".toList = .ok ((), "2".toList) := by
  decide +kernel

end Iode.RepFn
