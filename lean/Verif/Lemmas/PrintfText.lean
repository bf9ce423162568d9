import Verif.Lemmas.Printf
import Verif.Lemmas.LecLex
import Verif.Lemmas.Text
import Verif.Spec.Ascii

/-! # The text of a number is a numeral of its rounded value -/
namespace Iode
namespace Printf
open Decimals Lec Lec.Written Asc.Written

theorem natToChars_digits (n : Nat) : Digits (natToChars n) := by
  intro c hc
  have := natToChars_isDigit n c hc
  simpa [isDigitC, Digit] using this

theorem dec_natToChars (n : Nat) : dec (natToChars n) = n := by
  rw [← natOf_eq]
  exact digitsVal_natToChars n

theorem natToChars_length {n k : Nat} (hk : 1 ≤ k) (h : n < 10 ^ k) : (natToChars n).length ≤ k := by
  induction k generalizing n with
  | zero => omega
  | succ k ih =>
    unfold natToChars
    split
    · simp
    · rename_i h10
      have hk0 : k ≠ 0 := by
        rintro rfl
        omega
      have := ih (n := n / 10) (by omega) (by rw [Nat.div_lt_iff_lt_mul (by omega)]; rwa [Nat.pow_succ] at h)
      simp
      omega

theorem le_natToChars_length {n k : Nat} (h : 10 ^ k ≤ n) : k + 1 ≤ (natToChars n).length := by
  induction k generalizing n with
  | zero =>
    cases hn : natToChars n with
    | nil => exact absurd hn (natToChars_ne_nil n)
    | cons c r => simp
  | succ k ih =>
    unfold natToChars
    have hp : 0 < 10 ^ k := by positivity
    rw [Nat.pow_succ] at h
    split
    · omega
    · have := ih (n := n / 10) (by rw [Nat.le_div_iff_mul_le (by omega)]; exact h)
      simp
      omega

theorem dec_append (a b : List Char) : dec (a ++ b) = dec a * 10 ^ b.length + dec b := by
  rw [← natOf_eq, natOf_append]

theorem dec_zeros (n : Nat) : dec (List.replicate n '0') = 0 := by
  induction n with
  | zero => rfl
  | succ n ih => rw [List.replicate_succ, dec, ih]; simp

theorem digits_zeros (n : Nat) : Digits (List.replicate n '0') := by
  intro c hc
  rw [List.eq_of_mem_replicate hc]
  decide

theorem Digits.append {a b : List Char} (ha : Digits a) (hb : Digits b) : Digits (a ++ b) := by
  intro c hc
  rcases List.mem_append.1 hc with h | h
  · exact ha c h
  · exact hb c h

theorem Digits.take {a : List Char} (h : Digits a) (n : Nat) : Digits (a.take n) := fun c hc => h c (List.mem_of_mem_take hc)
theorem Digits.drop {a : List Char} (h : Digits a) (n : Nat) : Digits (a.drop n) := fun c hc => h c (List.mem_of_mem_drop hc)

/-- Digits are those that are kept and zeros. -/
theorem strip_split (d : List Char) : ∃ k, d = stripZeros d ++ List.replicate k '0' := by
  refine ⟨(d.reverse.takeWhile fun c => decide (c = '0')).length, ?_⟩
  have h : (d.reverse.takeWhile fun c => decide (c = '0')) =
      List.replicate (d.reverse.takeWhile fun c => decide (c = '0')).length '0' := by
    rw [List.eq_replicate_iff]
    refine ⟨rfl, fun c hc => ?_⟩
    have := (List.all_takeWhile (p := fun c => decide (c = '0')) (l := d.reverse))
    rw [List.all_eq_true] at this
    simpa using this c hc
  have h2 := List.takeWhile_append_dropWhile (p := fun c => decide (c = '0')) (l := d.reverse)
  have h3 := congrArg List.reverse h2
  rw [List.reverse_append, List.reverse_reverse] at h3
  rw [stripZeros]
  conv_lhs => rw [← h3]
  congr 1
  rw [h, List.reverse_replicate, List.length_replicate]

theorem number_zpow (i f : List Char) (e : Int) : number i f e = (dec (i ++ f) : Rat) * (10 : Rat) ^ (e - (f.length : Int)) := by
  have h10 : (10 : Rat) ≠ 0 := by norm_num
  have hp : ∀ n : Nat, (10 : Rat) ^ n ≠ 0 := fun n => pow_ne_zero n h10
  have he : (10 : Rat) ^ e = 10 ^ e.toNat / 10 ^ (-e).toNat := by
    rw [eq_div_iff (hp _), ← zpow_natCast, ← zpow_natCast, ← zpow_add₀ h10]
    congr 1
    omega
  rw [number, mul_div_assoc, ← he, zpow_sub₀ h10, zpow_natCast, dec_append]
  push_cast
  field_simp

theorem expText_digits (n : Nat) : Digits (expText n) ∧ expText n ≠ [] ∧ dec (expText n) = n := by
  rw [expText]
  split
  · refine ⟨?_, by simp, ?_⟩
    · intro c hc
      rcases List.mem_cons.1 hc with rfl | h
      · decide
      · exact natToChars_digits n c h
    · rw [dec, dec_natToChars]; simp
  · exact ⟨natToChars_digits n, natToChars_ne_nil n, dec_natToChars n⟩

theorem exp_expo (x : Int) : Expo ('e' :: (if x < 0 then '-' else '+') :: expText x.natAbs) x := by
  obtain ⟨h1, h2, h3⟩ := expText_digits x.natAbs
  split
  · have := Expo.minus (c := 'e') (.inl rfl) h1 h2
    rw [h3] at this
    rwa [show -((x.natAbs : Nat) : Int) = x by omega] at this
  · have := Expo.plus (c := 'e') (.inl rfl) h1 h2
    rw [h3] at this
    rwa [show ((x.natAbs : Nat) : Int) = x by omega] at this

theorem layout_numeral (P : Nat) {ds : List Char} (hd : Digits ds) (hne : ds ≠ []) (x : Int) :
    Numeral (layout P ds x) ((dec ds : Rat) * (10 : Rat) ^ (x + 1 - (ds.length : Int))) := by
  have h10 : (10 : Rat) ≠ 0 := by norm_num
  have hl : 1 ≤ ds.length := by
    cases ds with
    | nil => exact absurd rfl hne
    | cons c r => simp
  rw [layout]
  split
  · -- with an exponent
    refine .inr ?_
    have ht : ds.take 1 ≠ [] := by
      cases ds with
      | nil => exact absurd rfl hne
      | cons c r => simp
    rw [point]
    split
    · rename_i hf
      rw [List.nil_append]
      have hlen : ds.length = 1 := by
        have := congrArg List.length hf
        simp at this
        omega
      have := Decimal.whole (Digits.take hd 1) ht (exp_expo x) (.inl (by simp))
      rw [number_zpow, List.append_nil, List.take_of_length_le (by omega)] at this
      rw [List.take_of_length_le (by omega)]
      rw [hlen]
      simpa using this
    · have := Decimal.point (Digits.take hd 1) (Digits.drop hd 1) (.inl ht) (exp_expo x)
      rw [number_zpow, List.take_append_drop] at this
      rw [List.length_drop] at this
      rw [List.cons_append]
      have e : x - ((ds.length - 1 : Nat) : Int) = x + 1 - (ds.length : Int) := by omega
      rwa [e] at this
  · rename_i hx
    split
    · rename_i hx0
      obtain ⟨n, rfl⟩ : ∃ n : Nat, x = n := ⟨x.toNat, by omega⟩
      rw [Int.toNat_natCast]
      by_cases hle : ds.length ≤ n + 1
      · have e1 : (ds ++ List.replicate (n + 1 - ds.length) '0').take (n + 1) =
            ds ++ List.replicate (n + 1 - ds.length) '0' := List.take_of_length_le (by simp; omega)
        have e2 : ds.drop (n + 1) = [] := List.drop_of_length_le hle
        have hlen : (ds ++ List.replicate (n + 1 - ds.length) '0').length = n + 1 := by simp; omega
        have hv : (dec ds : Rat) * (10 : Rat) ^ ((n : Int) + 1 - (ds.length : Int)) =
            dec (ds ++ List.replicate (n + 1 - ds.length) '0') := by
          rw [dec_append, dec_zeros, List.length_replicate]
          push_cast
          rw [add_zero, ← zpow_natCast]
          congr 2
          omega
        rw [e1, e2, point, if_pos rfl, List.append_nil, hv]
        have hD := Digits.append hd (digits_zeros (n + 1 - ds.length))
        generalize ds ++ List.replicate (n + 1 - ds.length) '0' = i at *
        by_cases h9 : i.length ≤ 9
        · exact .inl ⟨hD, by rintro rfl; simp at hlen, h9, rfl⟩
        · have := Decimal.whole hD (by rintro rfl; simp at hlen) Expo.none (.inr (by omega))
          rw [number_zpow] at this
          simp only [List.append_nil] at this
          simp only [List.length_nil, Nat.cast_zero, sub_zero, zpow_zero, mul_one] at this
          exact .inr this
      · have e1 : (ds ++ List.replicate (n + 1 - ds.length) '0').take (n + 1) = ds.take (n + 1) :=
          List.take_append_of_le_length (by omega)
        have hf : ds.drop (n + 1) ≠ [] := by
          intro h
          have := congrArg List.length h
          simp at this
          omega
        rw [e1, point, if_neg hf]
        have := Decimal.point (Digits.take hd (n + 1)) (Digits.drop hd (n + 1)) (.inr hf) Expo.none
        rw [number_zpow, List.take_append_drop, List.length_drop, List.append_nil] at this
        have e : (0 : Int) - ((ds.length - (n + 1) : Nat) : Int) = (n : Int) + 1 - (ds.length : Int) := by omega
        rw [e] at this
        exact .inr this
    · have hz : Digits ['0'] := by decide
      have := Decimal.point hz (Digits.append (digits_zeros (-x - 1).toNat) hd) (.inl (by simp)) Expo.none
      rw [number_zpow, List.append_nil] at this
      refine .inr ?_
      rw [dec_append, dec_append, dec_zeros, List.length_append, List.length_replicate] at this
      have e : (0 : Int) - (((-x - 1).toNat + ds.length : Nat) : Int) = x + 1 - (ds.length : Int) := by omega
      rw [e] at this
      simpa [dec] using this

/-- The size of `double` numbers. -/
def Sized (q : Rat) : Prop := q = 0 ∨ ((10 : Rat) ^ (-400 : Int) ≤ |q| ∧ |q| < (10 : Rat) ^ (400 : Int))

theorem ilog_bounds {q : Rat} (hq : 0 < q) {a c : Int} (h1 : (10 : Rat) ^ a ≤ q) (h2 : q < (10 : Rat) ^ c) :
    a ≤ ilog 10 q ∧ ilog 10 q < c := by
  obtain ⟨h3, h4⟩ := ilog_spec (b := 10) (by omega) hq
  push_cast at h3 h4
  have hb : (1 : Rat) < 10 := by norm_num
  constructor
  · have := (zpow_lt_zpow_iff_right₀ hb).1 (lt_of_le_of_lt h1 h4)
    omega
  · exact (zpow_lt_zpow_iff_right₀ hb).1 (lt_of_le_of_lt h3 h2)

/-- The text of a positive number. -/
theorem body_numeral {P : Nat} (hP : 1 ≤ P) {q : Rat} (hq : q ≠ 0) :
    Numeral (layout P (stripZeros (natToChars (mant 10 P q)))
      (((natToChars (mant 10 P q)).length : Int) - 1 + unit 10 P q)) ((mant 10 P q : Rat) * (10 : Rat) ^ unit 10 P q) := by
  have h10 : (10 : Rat) ≠ 0 := by norm_num
  have hm := (mant_bounds (b := 10) (by omega) hP hq).1
  have hpos : 0 < mant 10 P q := lt_of_lt_of_le (by positivity) hm
  generalize mant 10 P q = m at *
  have hd := natToChars_digits m
  have hv := dec_natToChars m
  obtain ⟨k, hk⟩ := strip_split (natToChars m)
  generalize natToChars m = d at *
  generalize hs : stripZeros d = ds at *
  have hds : Digits ds := by
    intro c hc
    exact hd c (by rw [hk]; simp [hc])
  have hdec : m = dec ds * 10 ^ k := by
    rw [← hv]
    conv_lhs => rw [hk]
    rw [dec_append, dec_zeros, List.length_replicate]
    simp
  have hne : ds ≠ [] := by
    rintro rfl
    simp [dec] at hdec
    omega
  have := layout_numeral P hds hne ((d.length : Int) - 1 + unit 10 P q)
  have hlen : d.length = ds.length + k := by
    conv_lhs => rw [hk]
    simp
  have e : (m : Rat) * (10 : Rat) ^ unit 10 P q = (dec ds : Rat) * (10 : Rat) ^ ((d.length : Int) - 1 + unit 10 P q + 1 - (ds.length : Int)) := by
    rw [hdec, hlen]
    push_cast
    rw [mul_assoc, ← zpow_natCast, ← zpow_add₀ h10]
    congr 2
    omega
  rw [e]
  exact this

/-- A sign or nothing, and a numeral of the absolute value of the rounded number. -/
theorem fmtG_numeral {P : Nat} (hP : 1 ≤ P) (q : Rat) :
    ∃ t, Numeral t |sig 10 P q| ∧ fmtG P q = (if q < 0 then '-' :: t else t) := by
  by_cases hq : q = 0
  · subst hq
    exact ⟨['0'], .inl ⟨by decide, by simp, by simp, by simp [sig, dec]⟩, by simp [fmtG]⟩
  · refine ⟨layout P (stripZeros (natToChars (mant 10 P q)))
      (((natToChars (mant 10 P q)).length : Int) - 1 + unit 10 P q), ?_, ?_⟩
    · have := body_numeral hP hq
      have e : |sig 10 P q| = (mant 10 P q : Rat) * (10 : Rat) ^ unit 10 P q := by
        have hp : 0 ≤ (mant 10 P q : Rat) * (10 : Rat) ^ unit 10 P q :=
          mul_nonneg (Nat.cast_nonneg _) (zpow_nonneg (by norm_num) _)
        rw [sig, if_neg hq]
        push_cast
        split
        · rw [abs_neg, abs_of_nonneg hp]
        · rw [abs_of_nonneg hp]
      rw [e]
      exact this
    · rw [fmtG, if_neg hq]

theorem layout_length {P : Nat} {ds : List Char} {x : Int} (hd : ds.length ≤ P + 1) (hx : x.natAbs < 10 ^ 4) :
    (layout P ds x).length ≤ P + 8 := by
  have hp : ∀ f : List Char, (point f).length ≤ f.length + 1 := by
    intro f
    rw [point]
    split <;> simp
  have he : (expText x.natAbs).length ≤ 4 := by
    rw [expText]
    split
    · have := natToChars_length (n := x.natAbs) (k := 1) (by omega) (by omega)
      simp
      omega
    · exact natToChars_length (by omega) hx
  rw [layout]
  split
  · have := hp (ds.drop 1)
    simp only [List.length_append, List.length_cons, List.length_drop, List.length_take] at this ⊢
    omega
  · split
    · have := hp (ds.drop (x.toNat + 1))
      simp only [List.length_append, List.length_take, List.length_drop, List.length_replicate] at this ⊢
      omega
    · simp only [List.length_append, List.length_cons, List.length_replicate]
      omega

/-- The text of a `double` is short. -/
theorem fmtG_length {P : Nat} (hP : 1 ≤ P) (hP2 : P ≤ 100) {q : Rat} (hq : Sized q) : (fmtG P q).length ≤ P + 9 := by
  rw [fmtG]
  split
  · simp
  · rename_i h0
    rcases hq with h | ⟨h1, h2⟩
    · exact absurd h h0
    · obtain ⟨b1, b2⟩ := ilog_bounds (abs_pos.2 h0) h1 h2
      obtain ⟨m1, m2⟩ := mant_bounds (b := 10) (by omega) hP h0
      have l1 := le_natToChars_length m1
      have l2 := natToChars_length (n := mant 10 P q) (k := P + 1) (by omega) (by
        have : 10 ^ P < 10 ^ (P + 1) := Nat.pow_lt_pow_right (by omega) (by omega)
        omega)
      obtain ⟨k, hk⟩ := strip_split (natToChars (mant 10 P q))
      have l3 := congrArg List.length hk
      rw [List.length_append] at l3
      have hu : unit 10 P q = ilog 10 |q| - ((P : Int) - 1) := rfl
      have := layout_length (P := P) (ds := stripZeros (natToChars (mant 10 P q)))
        (x := ((natToChars (mant 10 P q)).length : Int) - 1 + unit 10 P q) (by omega) (by omega)
      simp only
      split
      · simp only [List.length_cons]; omega
      · omega

end Printf
end Iode
