import Verif.Lemmas.AscTbl
import Verif.Lemmas.AscScl
import Verif.Lemmas.Flt
import Verif.Props.C51
import Mathlib.Data.Nat.Log

/-! # Numbers written with six decimals -/
namespace Iode
namespace Asc
namespace Tables
open Yy Written Printf Decimals
open Lec.Written (Digit Digits dec)

/-- The number written by `%f`. -/
def dec6 (q : Rat) : Rat := (if q < 0 then -1 else 1) * (roundEven (|q| * 10 ^ 6) : Rat) / 10 ^ 6

theorem dec6_near (q : Rat) : Near6 q (dec6 q) := by
  have hp : 0 ≤ |q| * 10 ^ 6 := mul_nonneg (abs_nonneg q) (by norm_num)
  have h := roundEven_half hp
  unfold dec6
  generalize roundEven (|q| * 10 ^ 6) = n at *
  by_cases hq : q < 0
  · rw [if_pos hq]
    rw [abs_of_neg hq] at h
    refine ⟨⟨-(n : Int), by push_cast; ring⟩, ?_⟩
    rw [abs_le] at h ⊢
    constructor <;> (norm_num at h ⊢; linarith)
  · rw [if_neg hq]
    rw [abs_of_nonneg (not_lt.1 hq)] at h
    refine ⟨⟨(n : Int), by push_cast; ring⟩, ?_⟩
    rw [abs_le] at h ⊢
    constructor <;> (norm_num at h ⊢; linarith)

/-- A number of six decimals that is strictly nearer than any other. -/
theorem near6_unique {q r s : Rat} (h : Near6 q r) (hs : ∃ n : Int, s = n / 10 ^ 6) (h2 : |q - s| < 1 / (2 * 10 ^ 6)) : r = s := by
  obtain ⟨⟨a, rfl⟩, h1⟩ := h
  obtain ⟨b, rfl⟩ := hs
  rw [abs_le] at h1
  rw [abs_lt] at h2
  have c1 : (a : Rat) - b < 1 := by norm_num at h1 h2; linarith
  have c2 : (b : Rat) - a < 1 := by norm_num at h1 h2; linarith
  have d1 : a - b < 1 := by exact_mod_cast c1
  have d2 : b - a < 1 := by exact_mod_cast c2
  rw [show a = b by omega]

theorem dec_digit {k : Nat} (h : k < 10) : (digitChar k).toNat - 48 = k := by
  have : ∀ k < 10, (digitChar k).toNat - 48 = k := by decide
  exact this k h

theorem digit_digit {k : Nat} (h : k < 10) : Digit (digitChar k) := by
  have : ∀ k < 10, Digit (digitChar k) := by decide
  exact this k h

theorem six_digits (n : Nat) : Digits (sixDigits n) := by
  intro c hc
  simp only [sixDigits, List.mem_cons, List.not_mem_nil, or_false] at hc
  rcases hc with rfl | rfl | rfl | rfl | rfl | rfl <;> exact digit_digit (by omega)

theorem six_dec {n : Nat} (h : n < 10 ^ 6) : dec (sixDigits n) = n := by
  have e : ∀ k, (digitChar (k % 10)).toNat - 48 = k % 10 := fun k => dec_digit (by omega)
  simp only [sixDigits, dec, e, List.length_cons, List.length_nil]
  omega

/-- The text of a number. -/
theorem fmtF_numeral (q : Rat) (hq : |q| < (10 : Rat) ^ 39) :
    ∃ t, Numeral t |dec6 q| ∧ t.length < 100 ∧ fmtF q = (if q < 0 then '-' :: t else t) := by
  have hp : 0 ≤ |q| * 10 ^ 6 := mul_nonneg (abs_nonneg q) (by norm_num)
  have hle : roundEven (|q| * 10 ^ 6) ≤ 10 ^ 45 := by
    refine roundEven_le hp ?_
    push_cast
    have : |q| * 10 ^ 6 ≤ (10 : Rat) ^ 39 * 10 ^ 6 := mul_le_mul_of_nonneg_right hq.le (by norm_num)
    norm_num at this ⊢
    linarith
  have e : |dec6 q| = (roundEven (|q| * 10 ^ 6) : Rat) / 10 ^ 6 := by
    unfold dec6
    rw [abs_div, abs_mul]
    have : |(if q < 0 then (-1 : Rat) else 1)| = 1 := by split <;> norm_num
    rw [this, one_mul, abs_of_nonneg (Nat.cast_nonneg _)]
    norm_num
  rw [e]
  unfold fmtF
  generalize roundEven (|q| * 10 ^ 6) = n at *
  refine ⟨natToChars (n / 10 ^ 6) ++ '.' :: sixDigits (n % 10 ^ 6), .inr ?_, ?_, ?_⟩
  · have := Lec.Written.Decimal.point (x := []) (e := 0) (natToChars_digits (n / 10 ^ 6)) (six_digits (n % 10 ^ 6))
      (.inl (natToChars_ne_nil _)) .none
    rw [List.append_nil] at this
    have e2 : Lec.Written.number (natToChars (n / 10 ^ 6)) (sixDigits (n % 10 ^ 6)) 0 = (n : Rat) / 10 ^ 6 := by
      rw [Lec.Written.number, dec_natToChars, six_dec (Nat.mod_lt _ (by norm_num))]
      have h1 : (sixDigits (n % 10 ^ 6)).length = 6 := rfl
      rw [h1]
      have h2 : (n : Rat) = ((n / 10 ^ 6 : Nat) : Rat) * 10 ^ 6 + ((n % 10 ^ 6 : Nat) : Rat) := by
        exact_mod_cast (Nat.div_add_mod' n (10 ^ 6)).symm
      rw [h2]
      norm_num
      ring
    rw [e2] at this
    exact this
  · have := natToChars_length (n := n / 10 ^ 6) (k := 40) (by omega) (by
      have : n / 10 ^ 6 ≤ 10 ^ 45 / 10 ^ 6 := Nat.div_le_div_right hle
      norm_num at this ⊢
      omega)
    have h1 : (sixDigits (n % 10 ^ 6)).length = 6 := rfl
    simp only [List.length_append, List.length_cons, h1]
    omega
  · split <;> rfl

theorem dec6_sign (q : Rat) : (if q < 0 then -|dec6 q| else |dec6 q|) = dec6 q := by
  unfold dec6
  have : (0 : Rat) ≤ roundEven (|q| * 10 ^ 6) := Nat.cast_nonneg _
  by_cases h : q < 0
  · rw [if_pos h, if_pos h, abs_of_nonpos (by apply div_nonpos_of_nonpos_of_nonneg <;> linarith)]
    ring
  · rw [if_neg h, if_neg h, abs_of_nonneg (by apply div_nonneg <;> linarith)]

/-! ## Large numbers -/

theorem dec6_int (n : Int) : dec6 n = n := by
  refine near6_unique (dec6_near _) ⟨n * 10 ^ 6, by push_cast; norm_num⟩ ?_
  rw [sub_self, abs_zero]
  norm_num

/-- A decimal number that is near to a `float` of 24 digits. -/
theorem roundF_back {m : Int} {e : Int} (h1 : 2 ^ 23 < m) (h2 : m < 2 ^ 24) (he : -19 ≤ e) {r : Rat}
    (hr : |m * (2 : Rat) ^ e - r| ≤ 1 / (2 * 10 ^ 6)) : roundF (roundD r) = m * (2 : Rat) ^ e := by
  have hu : (2 : Rat) ^ (-19 : Int) ≤ (2 : Rat) ^ e := zpow_le_zpow_right₀ (by norm_num) he
  have hpos : (0 : Rat) < (2 : Rat) ^ e := zpow_pos (by norm_num) _
  have e3 : (2 : Rat) ^ e = 8 * (2 : Rat) ^ (e - 3) := by
    rw [zpow_sub₀ (by norm_num)]; norm_num; ring
  have hb : ∀ k : Int, |k| ≤ 3 → Binary (m * (2 : Rat) ^ e + k * (2 : Rat) ^ (e - 3)) := by
    intro k hk
    rw [abs_le] at hk
    refine ⟨8 * m + k, e - 3, ?_, by omega, by rw [e3]; push_cast; ring⟩
    rw [abs_lt]
    constructor <;> omega
  have hf : BinaryF (m * (2 : Rat) ^ e) := ⟨m, e, by rw [abs_lt]; constructor <;> omega, by omega, rfl⟩
  rw [abs_le] at hr
  norm_num at hr hu
  have x1 := near_le' (roundD_nearest r).2 (hb 3 (by norm_num)) (by push_cast; linarith)
  have x2 := near_ge' (roundD_nearest r).2 (hb (-3) (by norm_num)) (by push_cast; linarith)
  push_cast at x1 x2
  obtain ⟨⟨m', e', n1, n2, n3⟩, hy⟩ := roundF_nearest (roundD r)
  have h3 := hy _ hf
  have h4 : |roundD r - m * (2 : Rat) ^ e| ≤ 3 * (2 : Rat) ^ (e - 3) := by
    rw [abs_le]; constructor <;> linarith
  have h5 := le_trans h3 h4
  rw [abs_le] at h4 h5
  generalize roundF (roundD r) = y at *
  generalize roundD r = x at *
  subst n3
  rw [abs_lt] at n1
  by_cases hee : e ≤ e'
  · obtain ⟨k, hk⟩ : ∃ k : Int, (m' : Rat) * (2 : Rat) ^ e' = k * (2 : Rat) ^ e := by
      refine ⟨m' * 2 ^ (e' - e).toNat, ?_⟩
      push_cast
      rw [mul_assoc, ← zpow_natCast, ← zpow_add₀ (by norm_num)]
      congr 2
      omega
    rw [hk] at h5 ⊢
    have c1 : ((k : Rat) - m) * (2 : Rat) ^ e < 1 * (2 : Rat) ^ e := by linarith
    have c2 : ((m : Rat) - k) * (2 : Rat) ^ e < 1 * (2 : Rat) ^ e := by linarith
    have d1 := lt_of_mul_lt_mul_right c1 hpos.le
    have d2 := lt_of_mul_lt_mul_right c2 hpos.le
    have f1 : k - m < 1 := by exact_mod_cast d1
    have f2 : m - k < 1 := by exact_mod_cast d2
    rw [show k = m by omega]
  · have q1 : (m' : Rat) * (2 : Rat) ^ e' ≤ 2 ^ 24 * (2 : Rat) ^ (e - 1) := by
      have a1 : (m' : Rat) ≤ 2 ^ 24 := by exact_mod_cast n1.2.le
      have a2 : (2 : Rat) ^ e' ≤ (2 : Rat) ^ (e - 1) := zpow_le_zpow_right₀ (by norm_num) (by omega)
      have a3 : (0 : Rat) < (2 : Rat) ^ e' := zpow_pos (by norm_num) _
      exact mul_le_mul a1 a2 a3.le (by norm_num)
    have q2 : (2 : Rat) ^ (e - 1) = (2 : Rat) ^ e / 2 := by rw [zpow_sub₀ (by norm_num)]; norm_num
    have q3 : ((2 : Rat) ^ 23 + 1) * (2 : Rat) ^ e ≤ m * (2 : Rat) ^ e := by
      refine mul_le_mul_of_nonneg_right ?_ hpos.le
      exact_mod_cast h1
    rw [q2] at q1
    norm_num at q1 q3
    linarith

theorem normalize {m : Nat} (h0 : 0 < m) (h : m < 2 ^ 24) : ∃ k, 2 ^ 23 ≤ m * 2 ^ k ∧ m * 2 ^ k < 2 ^ 24 := by
  have h1 := Nat.pow_log_le_self 2 (by omega : m ≠ 0)
  have h2 := Nat.lt_pow_succ_log_self (b := 2) (by omega) m
  have h3 : Nat.log 2 m < 24 := Nat.log_lt_of_lt_pow (by omega) h
  refine ⟨23 - Nat.log 2 m, ?_, ?_⟩
  · calc 2 ^ 23 = 2 ^ Nat.log 2 m * 2 ^ (23 - Nat.log 2 m) := by rw [← pow_add]; congr 1; omega
      _ ≤ m * 2 ^ (23 - Nat.log 2 m) := Nat.mul_le_mul_right _ h1
  · calc m * 2 ^ (23 - Nat.log 2 m) < 2 ^ (Nat.log 2 m + 1) * 2 ^ (23 - Nat.log 2 m) := Nat.mul_lt_mul_of_pos_right h2 (by positivity)
      _ = 2 ^ 24 := by rw [← pow_add]; congr 1; omega

theorem binary_of_binaryF {q : Rat} (h : BinaryF q) : Binary q := by
  obtain ⟨m, e, h1, h2, h3⟩ := h
  exact ⟨m, e, lt_trans h1 (by norm_num), by omega, h3⟩

theorem back_pos {q : Rat} (h : BinaryF q) (hq : 16 ≤ q) {r : Rat} (hr : Near6 q r) : roundF (roundD r) = q := by
  have hi : ∀ n : Int, q = n → roundF (roundD r) = q := by
    intro n hn
    have : r = q := near6_unique hr ⟨n * 10 ^ 6, by rw [hn]; push_cast; norm_num⟩ (by rw [sub_self, abs_zero]; norm_num)
    rw [this, roundD_binary (binary_of_binaryF h), roundF_binaryF h]
  obtain ⟨m, e, h1, h2, h3⟩ := h
  have hpos : (0 : Rat) < (2 : Rat) ^ e := zpow_pos (by norm_num) _
  have hm : 0 < m := by
    by_contra hc
    have : (m : Rat) ≤ 0 := by exact_mod_cast not_lt.1 hc
    have := mul_nonpos_of_nonpos_of_nonneg this hpos.le
    linarith
  obtain ⟨n, rfl⟩ : ∃ n : Nat, m = n := ⟨m.toNat, by omega⟩
  rw [abs_of_pos hm] at h1
  obtain ⟨k, k1, k2⟩ := normalize (by omega : 0 < n) (by exact_mod_cast h1)
  have hv : q = ((n * 2 ^ k : Nat) : Int) * (2 : Rat) ^ (e - k) := by
    rw [h3]
    push_cast
    rw [mul_assoc, ← zpow_natCast, ← zpow_add₀ (by norm_num)]
    congr 2
    omega
  generalize n * 2 ^ k = N at *
  have he : -19 ≤ e - k := by
    by_contra hc
    have a : (2 : Rat) ^ (e - k) ≤ (2 : Rat) ^ (-20 : Int) := zpow_le_zpow_right₀ (by norm_num) (by omega)
    have b : ((N : Int) : Rat) < 2 ^ 24 := by exact_mod_cast k2
    have c : ((N : Int) : Rat) * (2 : Rat) ^ (e - k) < 2 ^ 24 * (2 : Rat) ^ (-20 : Int) :=
      mul_lt_mul b a (zpow_pos (by norm_num) _) (by norm_num)
    norm_num at c
    norm_num at hv
    linarith
  rcases Nat.lt_or_eq_of_le k1 with hlt | heq
  · rw [hv] at hr ⊢
    exact roundF_back (by exact_mod_cast hlt) (by exact_mod_cast k2) he hr.2
  · refine hi (2 ^ (23 + (e - k)).toNat) ?_
    rw [hv, ← heq]
    push_cast
    rw [← zpow_natCast, show (8388608 : Rat) = (2 : Rat) ^ (23 : Int) by norm_num, ← zpow_add₀ (by norm_num)]
    congr 1
    omega

theorem near6_neg {q r : Rat} (h : Near6 q r) : Near6 (-q) (-r) := by
  obtain ⟨⟨n, hn⟩, h⟩ := h
  refine ⟨⟨-n, by rw [hn]; push_cast; ring⟩, ?_⟩
  rw [← abs_neg]
  convert h using 2
  ring

/-- A `float` of at least 16 is not changed by six decimals. -/
theorem back_large {q : Rat} (h : BinaryF q) (hq : 16 ≤ |q|) {r : Rat} (hr : Near6 q r) : roundF (roundD r) = q := by
  rcases le_abs.1 hq with h1 | h1
  · exact back_pos h h1 hr
  · have := back_pos (binaryF_neg h) h1 (near6_neg hr)
    rw [roundD_neg, roundF_neg] at this
    linarith

/-! ## Small numbers -/

theorem grid (x : Rat) (k : Nat) : ∃ m : Int, |x - m / 2 ^ k| ≤ 1 / 2 ^ (k + 1) := by
  refine ⟨⌊x * 2 ^ k + 1 / 2⌋, ?_⟩
  have h1 := Int.floor_le (x * 2 ^ k + 1 / 2)
  have h2 := Int.lt_floor_add_one (x * 2 ^ k + 1 / 2)
  generalize ⌊x * 2 ^ k + 1 / 2⌋ = m at *
  have hp : (0 : Rat) < 2 ^ k := by positivity
  have e : x - m / 2 ^ k = (x * 2 ^ k - m) / 2 ^ k := by field_simp
  rw [e, abs_div, abs_of_pos hp, pow_succ, div_le_div_iff₀ hp (by positivity)]
  have : |x * 2 ^ k - m| ≤ 1 / 2 := by rw [abs_le]; constructor <;> linarith
  calc |x * 2 ^ k - m| * (2 ^ k * 2) ≤ 1 / 2 * (2 ^ k * 2) := mul_le_mul_of_nonneg_right this (by positivity)
    _ = 1 * 2 ^ k := by ring

theorem float_grid {x : Rat} (hx : |x| ≤ 16) : |x - roundF x| ≤ 1 / 2 ^ 21 := by
  obtain ⟨m, hm⟩ := grid x 20
  refine le_trans ((roundF_nearest x).2 _ ?_) hm
  rw [abs_le] at hx hm
  have a1 : (m : Rat) < 2 ^ 24 + 1 := by norm_num at hm ⊢; linarith
  have a2 : -(2 ^ 24 + 1 : Rat) < m := by norm_num at hm ⊢; linarith
  have b1 : m < 2 ^ 24 + 1 := by exact_mod_cast a1
  have b2 : -(2 ^ 24 + 1 : Int) < m := by exact_mod_cast a2
  by_cases hc : |m| < 2 ^ 24
  · exact ⟨m, -20, hc, by norm_num, by rw [zpow_neg]; norm_num; ring⟩
  · have : m = 2 ^ 24 ∨ m = -2 ^ 24 := by
      rw [abs_lt] at hc
      omega
    rcases this with rfl | rfl
    · exact ⟨1, 4, by norm_num, by norm_num, by norm_num⟩
    · exact ⟨-1, 4, by norm_num, by norm_num, by norm_num⟩

theorem double_grid {x : Rat} (hx : |x| ≤ 16) : |x - roundD x| ≤ 1 / 2 ^ 49 := by
  obtain ⟨m, hm⟩ := grid x 48
  refine le_trans ((roundD_nearest x).2 _ ?_) hm
  rw [abs_le] at hx hm
  have a1 : (m : Rat) < 2 ^ 53 := by norm_num at hm ⊢; linarith
  have a2 : -(2 ^ 53 : Rat) < m := by norm_num at hm ⊢; linarith
  exact ⟨m, -48, by rw [abs_lt]; exact ⟨by exact_mod_cast a2, by exact_mod_cast a1⟩, by norm_num, by rw [zpow_neg]; norm_num; ring⟩

theorem four : Binary 16 ∧ BinaryF 16 := ⟨⟨1, 4, by norm_num, by norm_num, by norm_num⟩, ⟨1, 4, by norm_num, by norm_num, by norm_num⟩⟩

theorem round_small {s : Rat} (hs : |s| ≤ 16) : |roundD s| ≤ 16 ∧ |roundF (roundD s)| ≤ 16 := by
  rw [abs_le] at hs
  have x1 := near_le' (roundD_nearest s).2 four.1 hs.2
  have x2 := near_ge' (roundD_nearest s).2 (binary_neg four.1) hs.1
  have y1 := near_le' (roundF_nearest (roundD s)).2 four.2 x1
  have y2 := near_ge' (roundF_nearest (roundD s)).2 (binaryF_neg four.2) x2
  exact ⟨abs_le.2 ⟨x2, x1⟩, abs_le.2 ⟨y2, y1⟩⟩

/-- Six decimals of the `float` next to a small number of six decimals. -/
theorem back_small {s : Rat} (hs : |s| ≤ 16) (h6 : ∃ n : Int, s = n / 10 ^ 6) {r : Rat} (hr : Near6 (roundF (roundD s)) r) : r = s := by
  refine near6_unique hr h6 ?_
  have h1 := double_grid hs
  have h2 := float_grid (round_small hs).1
  rw [abs_le] at h1 h2
  rw [abs_lt]
  constructor <;> (norm_num at h1 h2 ⊢; linarith)

end Tables
end Asc
end Iode
