import Verif.Lemmas.Printf
import Verif.Spec.Ascii

/-! # Rounding to `double` -/
namespace Iode
namespace Printf
open Decimals Asc.Written

theorem unitD_normal {q : Rat} (h : -1074 ≤ ilog 2 |q| - 52) : unitD q = unit 2 53 q := by
  rw [unitD, unit, max_eq_left h]
  norm_num

theorem ilog_ge {q : Rat} (hq : 0 < q) {a : Int} (h : (2 : Rat) ^ a ≤ q) : a ≤ ilog 2 q := by
  obtain ⟨_, h4⟩ := ilog_spec (b := 2) (by omega) hq
  push_cast at h4
  have := (zpow_lt_zpow_iff_right₀ (by norm_num : (1 : Rat) < 2)).1 (lt_of_le_of_lt h h4)
  omega

theorem binary_neg {q : Rat} (h : Binary q) : Binary (-q) := by
  obtain ⟨m, e, h1, h2, h3⟩ := h
  exact ⟨-m, e, by rwa [abs_neg], h2, by rw [h3]; push_cast; ring⟩

theorem binary_short {q : Rat} (h : Binary q) : Short 2 53 q := by
  obtain ⟨m, e, h1, _, h3⟩ := h
  exact ⟨m, e, by simpa using h1, by simpa using h3⟩

/-- In the range of normal numbers. -/
theorem roundD_normal {q : Rat} (h0 : q ≠ 0) (h : -1074 ≤ ilog 2 |q| - 52) : roundD q = toDouble q := by
  rw [roundD, toDouble, sig, if_neg h0, unitD_normal h]
  simp only [mant]
  norm_num

theorem toDouble_zero : toDouble 0 = 0 := by simp [toDouble, sig]

theorem roundEven_zero : roundEven 0 = 0 := by
  have := roundEven_le (x := 0) (le_refl _) (n := 0) (by simp)
  omega

theorem roundD_zero : roundD 0 = 0 := by simp [roundD, roundEven_zero]

theorem roundD_eq {q : Rat} (h : (2 : Rat) ^ (-1022 : Int) ≤ |q|) : roundD q = toDouble q := by
  have h0 : q ≠ 0 := by
    rintro rfl
    rw [abs_zero] at h
    exact absurd h (not_le.2 (zpow_pos (by norm_num) _))
  have := ilog_ge (abs_pos.2 h0) h
  exact roundD_normal h0 (by omega)

theorem roundD_neg (q : Rat) : roundD (-q) = -roundD q := by
  by_cases h : q = 0
  · subst h; simp [roundD_zero]
  · rw [roundD, roundD, unitD, unitD, abs_neg]
    rcases lt_or_gt_of_ne h with h | h
    · rw [if_neg (by linarith), if_pos h]; ring
    · rw [if_pos (by linarith), if_neg (by linarith)]

/-- The rounded absolute value is a number a `double` can hold, and none is nearer. -/
theorem roundD_nearest (q : Rat) : Binary (roundD q) ∧ ∀ s, Binary s → |q - roundD q| ≤ |q - s| := by
  by_cases h0 : q = 0
  · subst h0
    rw [roundD_zero]
    exact ⟨⟨0, 0, by norm_num, by norm_num, by simp⟩, fun s _ => by simp⟩
  · by_cases h : -1074 ≤ ilog 2 |q| - 52
    · have hn := sig_nearest (b := 2) (P := 53) (by omega) (by omega) q
      refine ⟨?_, fun s hs => ?_⟩
      · have key : Binary ((mant 2 53 q : Rat) * (2 : Rat) ^ unit 2 53 q) := by
          have hm := (mant_bounds (b := 2) (P := 53) (by omega) (by omega) h0).2
          have hu : unit 2 53 q = ilog 2 |q| - 52 := by rw [unit]; norm_num
          by_cases e : mant 2 53 q = 2 ^ 53
          · refine ⟨2 ^ 52, unit 2 53 q + 1, by norm_num, by omega, ?_⟩
            rw [e, zpow_add_one₀ (by norm_num)]
            push_cast
            ring
          · refine ⟨mant 2 53 q, unit 2 53 q, ?_, by omega, by simp⟩
            rw [abs_of_nonneg (by omega)]
            exact_mod_cast (by omega : mant 2 53 q < 2 ^ 53)
        rw [roundD_normal h0 h, toDouble, sig, if_neg h0]
        push_cast
        split
        · exact binary_neg key
        · exact key
      · rw [roundD_normal h0 h]
        exact hn.2 s (binary_short hs)
    · have hu : unitD q = -1074 := by rw [unitD]; exact max_eq_right (by omega)
      have hp : (0 : Rat) < (2 : Rat) ^ (-1074 : Int) := zpow_pos (by norm_num) _
      have hx : 0 ≤ |q| / (2 : Rat) ^ (-1074 : Int) := div_nonneg (abs_nonneg _) hp.le
      have hq : |q| / (2 : Rat) ^ (-1074 : Int) ≤ ((2 ^ 52 : Nat) : Rat) := by
        obtain ⟨_, h4⟩ := ilog_spec (b := 2) (by omega) (abs_pos.2 h0)
        rw [div_le_iff₀ hp]
        calc |q| ≤ ((2 : Nat) : Rat) ^ (ilog 2 |q| + 1) := h4.le
          _ ≤ (2 : Rat) ^ (-1022 : Int) := by
            push_cast
            exact zpow_le_zpow_right₀ (by norm_num) (by omega)
          _ = ((2 ^ 52 : Nat) : Rat) * (2 : Rat) ^ (-1074 : Int) := by
            rw [show (-1022 : Int) = 52 + -1074 by norm_num, zpow_add₀ (by norm_num)]
            norm_num
      have hm := roundEven_le hx hq
      have hnear := roundEven_near hx
      generalize hA : roundEven (|q| / (2 : Rat) ^ (-1074 : Int)) = m at *
      have key : Binary ((m : Rat) * (2 : Rat) ^ (-1074 : Int)) := by
        refine ⟨m, -1074, ?_, by omega, by simp⟩
        rw [abs_of_nonneg (by omega)]
        have : (2 : Nat) ^ 52 < 2 ^ 53 := by norm_num
        exact_mod_cast (by omega : m < 2 ^ 53)
      have near : ∀ s, Binary s → abs (|q| - (m : Rat) * (2 : Rat) ^ (-1074 : Int)) ≤ abs (|q| - s) := by
        rintro s ⟨a, e, _, he, rfl⟩
        have := hnear (a * 2 ^ (e + 1074).toNat)
        have e1 : ∀ y : Rat, |q| - y * (2 : Rat) ^ (-1074 : Int) = (|q| / (2 : Rat) ^ (-1074 : Int) - y) * (2 : Rat) ^ (-1074 : Int) := by
          intro y
          rw [sub_mul, div_mul_cancel₀ _ hp.ne']
        have e2 : (a : Rat) * (2 : Rat) ^ e = ((a * 2 ^ (e + 1074).toNat : Int) : Rat) * (2 : Rat) ^ (-1074 : Int) := by
          push_cast
          rw [mul_assoc, ← zpow_natCast, ← zpow_add₀ (by norm_num)]
          congr 2
          omega
        rw [e2, e1, e1, abs_mul, abs_mul]
        exact mul_le_mul_of_nonneg_right this (abs_nonneg _)
      have hr : roundD q = if q < 0 then -((m : Rat) * (2 : Rat) ^ (-1074 : Int)) else (m : Rat) * (2 : Rat) ^ (-1074 : Int) := by
        rw [roundD, hu, hA]
      rw [hr]
      split
      · rename_i hn
        refine ⟨binary_neg key, fun s hs => ?_⟩
        have := near (-s) (binary_neg hs)
        rw [abs_of_neg hn] at this
        have e1 : q - -((m : Rat) * (2 : Rat) ^ (-1074 : Int)) = -(-q - (m : Rat) * (2 : Rat) ^ (-1074 : Int)) := by ring
        have e2 : q - s = -(-q - -s) := by ring
        rw [e1, e2, abs_neg, abs_neg]
        exact this
      · rename_i hn
        refine ⟨key, fun s hs => ?_⟩
        have := near s hs
        rwa [abs_of_nonneg (not_lt.1 hn)] at this

theorem roundD_binary {q : Rat} (h : Binary q) : roundD q = q := by
  have := (roundD_nearest q).2 q h
  rw [sub_self, abs_zero] at this
  have := abs_nonpos_iff.1 this
  linarith

theorem ieee_finite {q : Rat} (h : |roundD q| < (2 : Rat) ^ 1024) : ieee q = .num (roundD q) := by
  rw [ieee]
  split
  · rename_i h0
    rw [h0, roundD_zero]
  · obtain ⟨h1, h2⟩ := abs_lt.1 h
    rw [if_neg (by linarith), if_neg (by linarith)]

theorem ieee_double {q : Rat} (h : Double q) : ieee q = .num q := by
  rw [ieee_finite (by rw [roundD_binary h.1]; exact h.2), roundD_binary h.1]

theorem ieee_neg (q : Rat) : ieee (-q) = signed true (ieee q) := by
  rw [ieee, ieee, roundD_neg]
  by_cases h0 : q = 0
  · subst h0; simp [signed]
  · have h2 : (0 : Rat) < 2 ^ 1024 := by positivity
    rw [if_neg (by simpa using h0), if_neg h0]
    generalize (2 : Rat) ^ 1024 = B at *
    by_cases h1 : B ≤ roundD q
    · rw [if_neg (by linarith), if_pos (by linarith), if_pos h1]
      rfl
    · rw [if_neg h1]
      by_cases h3 : roundD q ≤ -B
      · rw [if_pos (by linarith), if_pos h3]
        rfl
      · rw [if_neg (by linarith), if_neg (by linarith), if_neg h3]
        rfl

theorem signed_false (v : Dbl) : signed false v = v := by cases v <;> rfl

/-- Whole numbers of at most nine digits. -/
theorem ieee_whole {n : Nat} (h : n < 10 ^ 9) : ieee n = .num n := by
  refine ieee_double ⟨⟨n, 0, ?_, by norm_num, by simp⟩, ?_⟩
  · rw [abs_of_nonneg (by omega)]
    have : (10 : Nat) ^ 9 < 2 ^ 53 := by norm_num
    exact_mod_cast (by omega : n < 2 ^ 53)
  · rw [abs_of_nonneg (by positivity)]
    calc (n : Rat) < ((10 ^ 9 : Nat) : Rat) := by exact_mod_cast h
      _ ≤ 2 ^ 30 := by norm_num
      _ ≤ 2 ^ 1024 := pow_le_pow_right₀ (by norm_num) (by norm_num)

end Printf
end Iode
