import Verif.Lemmas.Dbl
import Verif.Lemmas.Ascii
import Verif.Model.Ascii
import Mathlib.Tactic.Linarith
import Mathlib.Tactic.NormNum

/-! # Doubles written with few decimal digits

The statements of Props/C48.lean for any number of digits up to 15. -/
namespace Iode
namespace Asc
open Printf Decimals Written

theorem near_le' {S : Rat → Prop} {q r b : Rat} (h : ∀ s, S s → |q - r| ≤ |q - s|) (hb : S b) (hq : q ≤ b) : r ≤ b := by
  by_contra hc
  have h1 := h b hb
  rw [abs_of_nonpos (by linarith : q - b ≤ 0), abs_of_nonpos (by linarith : q - r ≤ 0)] at h1
  linarith

theorem near_ge' {S : Rat → Prop} {q r b : Rat} (h : ∀ s, S s → |q - r| ≤ |q - s|) (hb : S b) (hq : b ≤ q) : b ≤ r := by
  by_contra hc
  have h1 := h b hb
  rw [abs_of_nonneg (by linarith : 0 ≤ q - b), abs_of_nonneg (by linarith : 0 ≤ q - r)] at h1
  linarith

section
variable {P : Nat}

theorem nearP (h1 : 1 ≤ P) (q : Rat) : Nearest 10 P q (sig 10 P q) := sig_nearest (by omega) h1 q

theorem short_tenP (h1 : 1 ≤ P) (e : Int) : Short 10 P ((10 : Rat) ^ e) :=
  ⟨1, e, by
    rw [abs_one]
    exact one_lt_pow₀ (by norm_num) (by omega), by simp⟩

theorem sig_upperP (h1 : 1 ≤ P) {q : Rat} {e : Int} (h : |q| ≤ (10 : Rat) ^ e) : |sig 10 P q| ≤ (10 : Rat) ^ e := by
  obtain ⟨h3, h2⟩ := abs_le.1 h
  exact abs_le.2 ⟨near_ge' (nearP h1 q).2 (short_neg (short_tenP h1 e)) h3, near_le' (nearP h1 q).2 (short_tenP h1 e) h2⟩

theorem sig_lowerP (h1 : 1 ≤ P) {q : Rat} {e : Int} (h : (10 : Rat) ^ e ≤ |q|) : (10 : Rat) ^ e ≤ |sig 10 P q| := by
  rcases le_abs.1 h with h | h
  · exact le_trans (near_ge' (nearP h1 q).2 (short_tenP h1 e) h) (le_abs_self _)
  · have := near_le' (nearP h1 q).2 (short_neg (short_tenP h1 e)) (by linarith : q ≤ -(10 : Rat) ^ e)
    exact le_trans (by linarith) (neg_le_abs _)

set_option exponentiation.threshold 2000 in
/-- Numbers of at most `10 ^ 308` do not overflow. -/
theorem ieee_small {r : Rat} (h : |r| ≤ (10 : Rat) ^ (308 : Int)) : ieee r = .num (roundD r) := by
  have hb : Binary (3 * (2 : Rat) ^ (1022 : Int)) := ⟨3, 1022, by norm_num, by norm_num, by norm_cast⟩
  have h1 : (10 : Rat) ^ (308 : Int) ≤ 3 * (2 : Rat) ^ (1022 : Int) := by
    exact_mod_cast (by norm_num : (10 : Nat) ^ 308 ≤ 3 * 2 ^ 1022)
  have h2 : 3 * (2 : Rat) ^ (1022 : Int) < (2 : Rat) ^ 1024 := by
    exact_mod_cast (by norm_num : (3 : Nat) * 2 ^ 1022 < 2 ^ 1024)
  obtain ⟨h3, h4⟩ := abs_le.1 (le_trans h h1)
  have hn := (roundD_nearest r).2
  refine ieee_finite (lt_of_le_of_lt (abs_le.2 ⟨near_ge' hn (binary_neg hb) h3, near_le' hn hb h4⟩) h2)

theorem double_round {s : Rat} (h : |s| ≤ (10 : Rat) ^ (308 : Int)) : Double (roundD s) := by
  have hi := ieee_small h
  refine ⟨(roundD_nearest s).1, ?_⟩
  by_cases h0 : s = 0
  · subst h0
    rw [roundD_zero, abs_zero]
    exact pow_pos (by norm_num) _
  · rw [ieee, if_neg h0] at hi
    split at hi
    · cases hi
    · split at hi
      · cases hi
      · rename_i h1 h2
        exact abs_lt.2 ⟨lt_of_not_ge h2, lt_of_not_ge h1⟩

/-- A number of at most 15 decimal digits is found again in the `double` next to it. -/
theorem sig_doubleP (h1 : 1 ≤ P) (h15 : P ≤ 15) {s : Rat} (hs : Short 10 P s) : sig 10 P (toDouble s) = s := by
  by_contra hne
  have h0 : s ≠ 0 := by
    rintro rfl
    rw [toDouble_zero] at hne
    exact hne (by simp [sig])
  have hnear := (sig_nearest (b := 10) (P := P) (by omega) h1 (toDouble s)).2 s hs
  have hsep := short_sep (b := 10) (P := P) (by omega) h1 (sig_nearest (by omega) h1 (toDouble s)).1 hs hne
  have herr := sig_error (b := 2) (P := 53) (by omega) (by omega) s
  change |s - toDouble s| * _ ≤ |s| at herr
  have htri := abs_sub_le (sig 10 P (toDouble s)) (toDouble s) s
  rw [abs_sub_comm (sig 10 P (toDouble s)) (toDouble s)] at htri
  rw [abs_sub_comm (toDouble s) s] at htri hnear
  have hp : 0 < |s| := abs_pos.2 h0
  have hpow : ((10 : Nat) : Rat) ^ P ≤ 10 ^ 15 := by
    push_cast
    exact pow_le_pow_right₀ (by norm_num) h15
  have hsep2 : |s| ≤ |sig 10 P (toDouble s) - s| * 10 ^ 15 :=
    le_trans hsep (mul_le_mul_of_nonneg_left hpow (abs_nonneg _))
  norm_num at herr hsep2
  linarith

theorem sig_roundP (h1 : 1 ≤ P) (h15 : P ≤ 15) {s : Rat} (hs : Short 10 P s) (h0 : s = 0 ∨ (2 : Rat) ^ (-1022 : Int) ≤ |s|) :
    sig 10 P (roundD s) = s := by
  rcases h0 with rfl | h0
  · rw [roundD_zero]; simp [sig]
  · rw [roundD_eq h0, sig_doubleP h1 h15 hs]

theorem limit' : roundD (-(10 ^ 37)) = -9999999999999999538762658202121142272 := by decide +kernel

/-- A number is not read back as a missing value. -/
theorem number_keptP (hP : 1 ≤ P) {q : Rat} (h : isNumber (.num q) = true) (hb : |q| ≤ (10 : Rat) ^ (308 : Int)) :
    isNumber (ieee (sig 10 P q)) = true := by
  rw [ieee_small (sig_upperP hP hb)]
  simp only [isNumber, decide_eq_true_eq] at h ⊢
  have hd : Binary (roundD (-(10 ^ 37))) := (roundD_nearest _).1
  have h1 : -(10 : Rat) ^ (37 : Int) ≤ sig 10 P q := by
    refine near_ge' (nearP hP q).2 (short_neg (short_tenP hP 37)) (le_trans ?_ h)
    rw [limit']; norm_num
  by_cases h2 : roundD (-(10 ^ 37)) ≤ sig 10 P q
  · exact near_ge' (roundD_nearest _).2 hd h2
  · by_contra hc
    generalize hr : sig 10 P q = r at *
    have n1 := (roundD_nearest r).2 _ hd
    have n2 := (roundD_nearest (-(10 ^ 37))).2 _ (roundD_nearest r).1
    by_cases he : r = -(10 ^ 37)
    · rw [he] at hc
      exact hc (le_refl _)
    · have h1' : -(10 : Rat) ^ 37 < r := lt_of_le_of_ne (by exact_mod_cast h1) (Ne.symm he)
      rw [limit'] at *
      generalize roundD r = x at *
      norm_num at *
      rw [abs_of_nonpos (by linarith : r + 9999999999999999538762658202121142272 ≤ 0)] at n1
      by_cases hx : x ≤ -10000000000000000000000000000000000000
      · rw [abs_of_nonneg (by linarith)] at n1 n2
        linarith
      · rw [abs_of_nonpos (by linarith : -10000000000000000000000000000000000000 - x ≤ 0)] at n2
        linarith

theorem sign_sigP (q : Rat) : (if q < 0 then -|sig 10 P q| else |sig 10 P q|) = sig 10 P q := by
  by_cases h0 : q = 0
  · subst h0; simp [sig]
  · have hn : 0 ≤ (mant 10 P q : Rat) * ((10 : Nat) : Rat) ^ unit 10 P q :=
      mul_nonneg (Nat.cast_nonneg _) (zpow_nonneg (by norm_num) _)
    rw [sig, if_neg h0]
    split
    · rw [abs_neg, abs_of_nonneg hn]
    · rw [abs_of_nonneg hn]

end

/-! ## Printing -/

/-- What is left of a value that is printed with `P` digits and read again. -/
def backP (P : Nat) (v : Dbl) : Dbl :=
  if isNumber v then
    match v with
    | .num q => ieee (sig 10 P q)
    | v => v
  else na

theorem backP_num {P : Nat} {q : Rat} (h : isNumber (.num q) = true) : backP P (.num q) = ieee (sig 10 P q) := by
  unfold backP
  rw [if_pos h]

theorem backP_na {P : Nat} {v : Dbl} (h : ¬ isNumber v = true) : backP P v = na := by
  unfold backP
  rw [if_neg h]

theorem na_number : isNumber na = false := by decide +kernel

set_option exponentiation.threshold 2000 in
theorem double_size {q : Rat} (h : Double q) : Sized q := by
  by_cases h0 : q = 0
  · exact .inl h0
  · refine .inr ⟨?_, ?_⟩
    · obtain ⟨⟨m, e, _, he, rfl⟩, _⟩ := h
      have hm : m ≠ 0 := by rintro rfl; simp at h0
      have h1 : (1 : Rat) ≤ |(m : Rat)| := by
        have := Int.one_le_abs hm
        exact_mod_cast this
      have h2 : (2 : Rat) ^ (-1074 : Int) ≤ (2 : Rat) ^ e := zpow_le_zpow_right₀ (by norm_num) he
      have h3 : (10 : Rat) ^ (-400 : Int) ≤ (2 : Rat) ^ (-1074 : Int) := by
        rw [zpow_neg, zpow_neg]
        refine inv_anti₀ (by positivity) ?_
        exact_mod_cast (by norm_num : (2 : Nat) ^ 1074 ≤ 10 ^ 400)
      rw [abs_mul, abs_of_pos (zpow_pos (by norm_num : (0 : Rat) < 2) e)]
      have h4 : (0 : Rat) < (2 : Rat) ^ e := zpow_pos (by norm_num) e
      nlinarith
    · refine lt_of_lt_of_le h.2 ?_
      exact_mod_cast (by norm_num : (2 : Nat) ^ 1024 ≤ 10 ^ 400)

end Asc
end Iode
