import Verif.Model.Printf
import Verif.Spec.Decimals
import Mathlib.Tactic.Linarith
import Mathlib.Tactic.Positivity
import Mathlib.Tactic.FieldSimp
import Mathlib.Tactic.Ring

/-! # Rounding to significant digits -/
namespace Iode
namespace Printf
open Decimals

theorem natLog_spec {b : Nat} (hb : 2 ≤ b) : ∀ (f n : Nat), 0 < n → n ≤ f →
    b ^ natLog b f n ≤ n ∧ n < b ^ (natLog b f n + 1) := by
  intro f
  induction f with
  | zero => intro n h1 h2; omega
  | succ f ih =>
    intro n h1 h2
    rw [natLog]
    split
    · rename_i h
      exact ⟨by rw [Nat.pow_zero]; exact h1, by simpa using h⟩
    · rename_i h
      have hd : n / b < n := Nat.div_lt_self h1 (by omega)
      have hp : 0 < n / b := Nat.div_pos (by omega) (by omega)
      obtain ⟨a, c⟩ := ih (n / b) hp (by omega)
      have hm : b * (n / b) ≤ n := Nat.mul_div_le n b
      have hm2 : n < b * (n / b + 1) := Nat.lt_mul_div_succ n (by omega)
      refine ⟨?_, ?_⟩
      · rw [Nat.pow_succ]
        calc b ^ natLog b f (n / b) * b ≤ n / b * b := Nat.mul_le_mul_right _ a
          _ ≤ n := by rw [Nat.mul_comm]; exact hm
      · rw [Nat.pow_succ]
        calc n < b * (n / b + 1) := hm2
          _ ≤ b * b ^ (natLog b f (n / b) + 1) := Nat.mul_le_mul_left _ c
          _ = _ := Nat.mul_comm _ _

theorem floor_nat {q : Rat} (h : 0 ≤ q) : ((q.floor.toNat : Nat) : Rat) ≤ q ∧ q < (q.floor.toNat : Rat) + 1 := by
  have h0 : 0 ≤ q.floor := Rat.le_floor_iff.2 (by simpa using h)
  have e : ((q.floor.toNat : Nat) : Rat) = (q.floor : Rat) := by
    have : ((q.floor.toNat : Nat) : Int) = q.floor := Int.toNat_of_nonneg h0
    exact_mod_cast congrArg (Int.cast : Int → Rat) this
  rw [e]
  have := Rat.lt_floor (x := q)
  exact ⟨Rat.floor_le _, by linarith⟩

theorem ceil_nat {q : Rat} (h : 0 ≤ q) : q ≤ ((q.ceil.toNat : Nat) : Rat) ∧ ((q.ceil.toNat : Nat) : Rat) < q + 1 := by
  have hc : q ≤ (q.ceil : Rat) := Rat.le_ceil
  have hl : (q.ceil : Rat) < q + 1 := Rat.ceil_lt
  have h0 : 0 ≤ q.ceil := by
    have : (0 : Rat) ≤ (q.ceil : Rat) := le_trans h hc
    exact_mod_cast this
  have e : ((q.ceil.toNat : Nat) : Rat) = (q.ceil : Rat) := by
    have : ((q.ceil.toNat : Nat) : Int) = q.ceil := Int.toNat_of_nonneg h0
    exact_mod_cast congrArg (Int.cast : Int → Rat) this
  rw [e]
  exact ⟨hc, hl⟩

theorem ilog_spec {b : Nat} (hb : 2 ≤ b) {q : Rat} (hq : 0 < q) :
    (b : Rat) ^ ilog b q ≤ q ∧ q < (b : Rat) ^ (ilog b q + 1) := by
  have hb0 : (0 : Rat) < b := by exact_mod_cast (by omega : 0 < b)
  rw [ilog]
  split
  · rename_i h1
    obtain ⟨f1, f2⟩ := floor_nat hq.le
    generalize q.floor.toNat = n at *
    have hn : 0 < n := by
      by_contra h
      have : n = 0 := by omega
      subst this
      simp at f2
      linarith
    obtain ⟨a, c⟩ := natLog_spec hb n n hn (Nat.le_refl n)
    have a' : ((b : Rat) ^ natLog b n n) ≤ n := by exact_mod_cast a
    have c' : (n : Rat) + 1 ≤ (b : Rat) ^ (natLog b n n + 1) := by exact_mod_cast c
    constructor
    · rw [zpow_natCast]; linarith
    · rw [show ((natLog b n n : Int) + 1) = ((natLog b n n + 1 : Nat) : Int) by push_cast; rfl, zpow_natCast]; linarith
  · rename_i h1
    have h1 : q < 1 := not_le.1 h1
    have hi : 1 < q⁻¹ := by rw [one_lt_inv₀ hq]; exact h1
    obtain ⟨f1, f2⟩ := ceil_nat (q := q⁻¹) (by linarith)
    generalize q⁻¹.ceil.toNat = n at *
    have hn : 2 ≤ n := by
      have : (1 : Rat) < n := by linarith
      have : 1 < n := by exact_mod_cast this
      omega
    obtain ⟨a, c⟩ := natLog_spec hb (n - 1) (n - 1) (by omega) (Nat.le_refl _)
    generalize natLog b (n - 1) (n - 1) = k at *
    have a' : ((b : Rat) ^ k) + 1 ≤ n := by
      have : b ^ k + 1 ≤ n := by omega
      exact_mod_cast this
    have c' : (n : Rat) ≤ (b : Rat) ^ (k + 1) := by
      have : n ≤ b ^ (k + 1) := by omega
      exact_mod_cast this
    have p1 : (0 : Rat) < (b : Rat) ^ k := by positivity
    have p2 : (0 : Rat) < (b : Rat) ^ (k + 1) := by positivity
    constructor
    · rw [zpow_neg, show ((k : Int) + 1) = ((k + 1 : Nat) : Int) by push_cast; rfl, zpow_natCast]
      rw [inv_le_comm₀ p2 hq]
      linarith
    · rw [show -((k : Int) + 1) + 1 = -(k : Int) by ring, zpow_neg, zpow_natCast, lt_inv_comm₀ hq p1]
      linarith

theorem roundEven_half {x : Rat} (hx : 0 ≤ x) : |x - roundEven x| ≤ 1 / 2 := by
  obtain ⟨f1, f2⟩ := floor_nat hx
  simp only [roundEven]
  generalize x.floor.toNat = n at *
  rw [abs_le]
  split
  · constructor <;> linarith
  · split
    · push_cast; constructor <;> linarith
    · split
      · constructor <;> linarith
      · push_cast; constructor <;> linarith

theorem roundEven_near {x : Rat} (hx : 0 ≤ x) (n : Int) : |x - roundEven x| ≤ |x - n| := by
  have h := roundEven_half hx
  by_cases e : n = (roundEven x : Int)
  · subst e; simp
  · have hd : (1 : Rat) ≤ |(n : Rat) - roundEven x| := by
      have : 1 ≤ |n - (roundEven x : Int)| := Int.one_le_abs (by omega)
      have h2 : (1 : Rat) ≤ ((|n - (roundEven x : Int)| : Int) : Rat) := by exact_mod_cast this
      rw [Int.cast_abs] at h2
      simpa using h2
    have : |(n : Rat) - roundEven x| ≤ |x - roundEven x| + |x - n| := by
      have := abs_sub_le (n : Rat) x (roundEven x)
      rw [abs_sub_comm (n : Rat) x] at this
      linarith
    linarith

theorem roundEven_le {x : Rat} (hx : 0 ≤ x) {n : Nat} (h : x ≤ n) : roundEven x ≤ n := by
  have h1 := roundEven_near hx n
  by_contra hc
  have h3 : (n : Rat) + 1 ≤ roundEven x := by exact_mod_cast (by omega : n + 1 ≤ roundEven x)
  have h2 := roundEven_half hx
  rw [abs_le] at h2
  rw [abs_sub_comm, abs_of_nonneg (by linarith), abs_sub_comm, abs_of_nonneg (by push_cast; linarith)] at h1
  push_cast at h1
  linarith

theorem le_roundEven {x : Rat} (hx : 0 ≤ x) {n : Nat} (h : (n : Rat) ≤ x) : n ≤ roundEven x := by
  have h1 := roundEven_near hx n
  by_contra hc
  have h3 : (roundEven x : Rat) + 1 ≤ n := by exact_mod_cast (by omega : roundEven x + 1 ≤ n)
  rw [abs_of_nonneg (by linarith), abs_of_nonneg (by push_cast; linarith)] at h1
  push_cast at h1
  linarith

/-- The digits of a number that is not zero: `b ^ (P - 1)` units at least, `b ^ P` at most. -/
theorem unit_spec {b P : Nat} (hb : 2 ≤ b) (hP : 1 ≤ P) {q : Rat} (hq : q ≠ 0) :
    0 < (b : Rat) ^ unit b P q ∧ ((b ^ (P - 1) : Nat) : Rat) ≤ |q| / (b : Rat) ^ unit b P q ∧
      |q| / (b : Rat) ^ unit b P q < ((b ^ P : Nat) : Rat) := by
  have hb0 : (0 : Rat) < b := by exact_mod_cast (by omega : 0 < b)
  obtain ⟨h1, h2⟩ := ilog_spec hb (abs_pos.2 hq)
  have hu : (0 : Rat) < (b : Rat) ^ unit b P q := zpow_pos hb0 _
  have e1 : ilog b |q| = ((P - 1 : Nat) : Int) + unit b P q := by rw [unit]; omega
  have e2 : ilog b |q| + 1 = (P : Int) + unit b P q := by rw [unit]; omega
  rw [e1, zpow_add₀ hb0.ne', zpow_natCast] at h1
  rw [e2, zpow_add₀ hb0.ne', zpow_natCast] at h2
  refine ⟨hu, ?_, ?_⟩
  · rw [le_div_iff₀ hu]; push_cast; exact h1
  · rw [div_lt_iff₀ hu]; push_cast; exact h2

theorem mant_bounds {b P : Nat} (hb : 2 ≤ b) (hP : 1 ≤ P) {q : Rat} (hq : q ≠ 0) :
    b ^ (P - 1) ≤ mant b P q ∧ mant b P q ≤ b ^ P := by
  obtain ⟨h0, h1, h2⟩ := unit_spec hb hP hq
  have hx : 0 ≤ |q| / (b : Rat) ^ unit b P q := by positivity
  exact ⟨le_roundEven hx h1, roundEven_le hx h2.le⟩

theorem short_neg {b P : Nat} {q : Rat} (h : Short b P q) : Short b P (-q) := by
  obtain ⟨m, e, h1, h2⟩ := h
  exact ⟨-m, e, by rwa [abs_neg], by rw [h2]; push_cast; ring⟩

theorem short_mant {b P : Nat} (hb : 2 ≤ b) (hP : 1 ≤ P) {q : Rat} (hq : q ≠ 0) :
    Short b P ((mant b P q : Rat) * (b : Rat) ^ unit b P q) := by
  have hb0 : (0 : Rat) < b := by exact_mod_cast (by omega : 0 < b)
  have h := (mant_bounds hb hP hq).2
  by_cases e : mant b P q = b ^ P
  · refine ⟨(b : Int) ^ (P - 1), unit b P q + 1, ?_, ?_⟩
    · rw [abs_of_nonneg (by positivity)]
      exact pow_lt_pow_right₀ (by exact_mod_cast (by omega : 1 < b)) (by omega)
    · rw [e, zpow_add_one₀ hb0.ne']
      obtain ⟨k, rfl⟩ : ∃ k, P = k + 1 := ⟨P - 1, by omega⟩
      push_cast
      rw [pow_succ]
      ring
  · refine ⟨mant b P q, unit b P q, ?_, by push_cast; rfl⟩
    rw [abs_of_nonneg (by positivity)]
    exact_mod_cast (by omega : mant b P q < b ^ P)

/-- The digits give the nearest number (of the size of `q`). -/
theorem mant_near {b P : Nat} (hb : 2 ≤ b) (hP : 1 ≤ P) {q : Rat} (hq : q ≠ 0) {s : Rat} (hs : Short b P s) :
    abs (|q| - (mant b P q : Rat) * (b : Rat) ^ unit b P q) ≤ abs (|q| - s) := by
  have hb0 : (0 : Rat) < b := by exact_mod_cast (by omega : 0 < b)
  have hb1 : (1 : Rat) ≤ b := by exact_mod_cast (by omega : 1 ≤ b)
  obtain ⟨h0, h1, h2⟩ := unit_spec hb hP hq
  obtain ⟨m, e, hm, rfl⟩ := hs
  have hx : 0 ≤ |q| / (b : Rat) ^ unit b P q := by positivity
  have key : ∀ n : Int, abs (|q| - (mant b P q : Rat) * (b : Rat) ^ unit b P q) ≤ abs (|q| - (n : Rat) * (b : Rat) ^ unit b P q) := by
    intro n
    have h := roundEven_near hx n
    have e1 : ∀ y : Rat, |q| - y * (b : Rat) ^ unit b P q = (|q| / (b : Rat) ^ unit b P q - y) * (b : Rat) ^ unit b P q := by
      intro y
      field_simp
    rw [e1, e1, abs_mul, abs_mul]
    exact mul_le_mul_of_nonneg_right h (abs_nonneg _)
  by_cases he : unit b P q ≤ e
  · have := key (m * (b : Int) ^ (e - unit b P q).toNat)
    have e2 : ((m * (b : Int) ^ (e - unit b P q).toNat : Int) : Rat) * (b : Rat) ^ unit b P q = (m : Rat) * (b : Rat) ^ e := by
      push_cast
      rw [mul_assoc, ← zpow_natCast, ← zpow_add₀ hb0.ne']
      congr 2
      omega
    rwa [e2] at this
  · have hk := key ((b : Int) ^ (P - 1))
    push_cast at hk h1
    have hq1 : (b : Rat) ^ (P - 1) * (b : Rat) ^ unit b P q ≤ |q| := by rwa [le_div_iff₀ h0] at h1
    have hm' : (|m| : Rat) ≤ (b : Rat) ^ P := by
      have : ((|m| : Int) : Rat) ≤ (((b : Int) ^ P : Int) : Rat) := by exact_mod_cast hm.le
      rw [Int.cast_abs] at this
      simpa using this
    have hs : (m : Rat) * (b : Rat) ^ e ≤ (b : Rat) ^ (P - 1) * (b : Rat) ^ unit b P q := by
      calc (m : Rat) * (b : Rat) ^ e ≤ |(m : Rat)| * (b : Rat) ^ e :=
            mul_le_mul_of_nonneg_right (le_abs_self _) (zpow_pos hb0 _).le
        _ ≤ (b : Rat) ^ P * (b : Rat) ^ (unit b P q - 1) :=
            mul_le_mul hm' (zpow_le_zpow_right₀ hb1 (by omega)) (zpow_pos hb0 _).le (by positivity)
        _ = _ := by
          rw [← zpow_natCast, ← zpow_natCast, ← zpow_add₀ hb0.ne', ← zpow_add₀ hb0.ne']
          congr 1
          omega
    rw [abs_of_nonneg (by linarith : 0 ≤ |q| - (b : Rat) ^ (P - 1) * (b : Rat) ^ unit b P q)] at hk
    rw [abs_of_nonneg (by linarith : 0 ≤ |q| - (m : Rat) * (b : Rat) ^ e)]
    linarith

/-- Rounding gives a number of `P` digits, and none is nearer. -/
theorem sig_nearest {b P : Nat} (hb : 2 ≤ b) (hP : 1 ≤ P) (q : Rat) : Nearest b P q (sig b P q) := by
  rw [sig]
  split
  · rename_i h
    subst h
    refine ⟨⟨0, 0, ?_, by simp⟩, fun s _ => by simp⟩
    have : (0 : Int) < (b : Int) ^ P := by have : (0 : Int) < b := by omega
                                           positivity
    simpa using this
  · rename_i hq
    split
    · rename_i hn
      refine ⟨short_neg (short_mant hb hP hq), fun s hs => ?_⟩
      have := mant_near hb hP hq (short_neg hs)
      rw [abs_of_neg hn] at this
      have e1 : q - -((mant b P q : Rat) * (b : Rat) ^ unit b P q) = -(-q - (mant b P q : Rat) * (b : Rat) ^ unit b P q) := by ring
      have e2 : q - s = -(-q - -s) := by ring
      rw [e1, e2, abs_neg, abs_neg]
      exact this
    · rename_i hn
      refine ⟨short_mant hb hP hq, fun s hs => ?_⟩
      have := mant_near hb hP hq hs
      rwa [abs_of_nonneg (not_lt.1 hn)] at this

/-- A number of `P` digits is its own rounding. -/
theorem sig_short {b P : Nat} (hb : 2 ≤ b) (hP : 1 ≤ P) {q : Rat} (h : Short b P q) : sig b P q = q := by
  have := (sig_nearest hb hP q).2 q h
  rw [sub_self, abs_zero] at this
  have := abs_nonpos_iff.1 this
  linarith

/-- The error of rounding, relative to the number. -/
theorem sig_error {b P : Nat} (hb : 2 ≤ b) (hP : 1 ≤ P) (q : Rat) : |q - sig b P q| * (2 * (b : Rat) ^ (P - 1)) ≤ |q| := by
  have hb0 : (0 : Rat) < b := by exact_mod_cast (by omega : 0 < b)
  by_cases hq : q = 0
  · subst hq; simp [sig]
  · obtain ⟨h0, h1, h2⟩ := unit_spec hb hP hq
    have hx : 0 ≤ |q| / (b : Rat) ^ unit b P q := by positivity
    have hh := roundEven_half hx
    have e1 : |q| - (mant b P q : Rat) * (b : Rat) ^ unit b P q = (|q| / (b : Rat) ^ unit b P q - mant b P q) * (b : Rat) ^ unit b P q := by
      field_simp
    have e3 : abs (|q| - (mant b P q : Rat) * (b : Rat) ^ unit b P q) ≤ 1 / 2 * (b : Rat) ^ unit b P q := by
      rw [e1, abs_mul, abs_of_pos h0]
      exact mul_le_mul_of_nonneg_right hh h0.le
    have e4 : |q - sig b P q| = abs (|q| - (mant b P q : Rat) * (b : Rat) ^ unit b P q) := by
      rw [sig, if_neg hq]
      split
      · rename_i hn
        rw [abs_of_neg hn, ← abs_neg]
        congr 1
        ring
      · rename_i hn
        rw [abs_of_nonneg (not_lt.1 hn)]
    rw [e4]
    push_cast at h1
    rw [le_div_iff₀ h0] at h1
    have hp : (0 : Rat) < (b : Rat) ^ (P - 1) := by positivity
    calc _ ≤ 1 / 2 * (b : Rat) ^ unit b P q * (2 * (b : Rat) ^ (P - 1)) := mul_le_mul_of_nonneg_right e3 (by positivity)
      _ = (b : Rat) ^ (P - 1) * (b : Rat) ^ unit b P q := by ring
      _ ≤ |q| := h1

/-- Two numbers of `P` digits are not too near to each other. -/
theorem short_sep {b P : Nat} (hb : 2 ≤ b) (hP : 1 ≤ P) {r s : Rat} (hr : Short b P r) (hs : Short b P s) (hne : r ≠ s) :
    |s| ≤ |r - s| * (b : Rat) ^ P := by
  have hb0 : (0 : Rat) < b := by exact_mod_cast (by omega : 0 < b)
  have hb1 : (1 : Rat) ≤ b := by exact_mod_cast (by omega : 1 ≤ b)
  by_cases h0 : s = 0
  · subst h0; rw [abs_zero]; positivity
  obtain ⟨hu, h1, h2⟩ := unit_spec hb hP h0
  have hm := (mant_bounds hb hP h0).1
  have hsig := sig_short hb hP hs
  have habs : |s| = (mant b P s : Rat) * (b : Rat) ^ unit b P s := by
    rw [sig, if_neg h0] at hsig
    have hp : 0 ≤ (mant b P s : Rat) * (b : Rat) ^ unit b P s := by positivity
    split at hsig
    · rename_i hn; rw [abs_of_neg hn]; linarith
    · rename_i hn; rw [abs_of_nonneg (not_lt.1 hn)]; linarith
  obtain ⟨k, hk⟩ : ∃ k : Int, s = (k : Rat) * (b : Rat) ^ unit b P s := by
    rw [sig, if_neg h0] at hsig
    split at hsig
    · exact ⟨-(mant b P s : Int), by push_cast; linarith⟩
    · exact ⟨(mant b P s : Int), by push_cast; linarith⟩
  rw [habs, mul_div_assoc, div_self hu.ne', mul_one] at h2
  generalize unit b P s = u at *
  generalize mant b P s = M at *
  obtain ⟨m', e', hm', rfl⟩ := hr
  by_cases he : u ≤ e'
  · have e2 : ((m' * (b : Int) ^ (e' - u).toNat : Int) : Rat) * (b : Rat) ^ u = (m' : Rat) * (b : Rat) ^ e' := by
      push_cast
      rw [mul_assoc, ← zpow_natCast, ← zpow_add₀ hb0.ne']
      congr 2
      omega
    rw [← e2] at hne ⊢
    generalize m' * (b : Int) ^ (e' - u).toNat = j at *
    have hjk : j ≠ k := by
      rintro rfl
      exact hne hk.symm
    have h3 : (b : Rat) ^ u ≤ |(j : Rat) * (b : Rat) ^ u - s| := by
      rw [hk, ← sub_mul, abs_mul, abs_of_pos hu]
      have : 1 ≤ |j - k| := Int.one_le_abs (by omega)
      have h4 : (1 : Rat) ≤ ((|j - k| : Int) : Rat) := by exact_mod_cast this
      rw [Int.cast_abs] at h4
      push_cast at h4
      nlinarith
    calc |s| = (M : Rat) * (b : Rat) ^ u := habs
      _ ≤ ((b ^ P : Nat) : Rat) * (b : Rat) ^ u := mul_le_mul_of_nonneg_right h2.le hu.le
      _ ≤ ((b ^ P : Nat) : Rat) * |(j : Rat) * (b : Rat) ^ u - s| := mul_le_mul_of_nonneg_left h3 (by positivity)
      _ = _ := by push_cast; ring
  · obtain ⟨p, rfl⟩ : ∃ p, P = p + 1 := ⟨P - 1, by omega⟩
    rw [Nat.add_sub_cancel] at hm
    have hm'' : |(m' : Rat)| ≤ (b : Rat) ^ (p + 1) - 1 := by
      have : |m'| + 1 ≤ (b : Int) ^ (p + 1) := by omega
      have : ((|m'| + 1 : Int) : Rat) ≤ (((b : Int) ^ (p + 1) : Int) : Rat) := by exact_mod_cast this
      push_cast at this
      linarith
    have hp1 : (1 : Rat) ≤ (b : Rat) ^ (p + 1) := one_le_pow₀ hb1
    have hw : (0 : Rat) < (b : Rat) ^ (u - 1) := zpow_pos hb0 _
    have hr' : |(m' : Rat) * (b : Rat) ^ e'| ≤ ((b : Rat) ^ (p + 1) - 1) * (b : Rat) ^ (u - 1) := by
      rw [abs_mul, abs_of_pos (zpow_pos hb0 e')]
      exact mul_le_mul hm'' (zpow_le_zpow_right₀ hb1 (by omega)) (zpow_pos hb0 _).le (by linarith)
    have hw2 : (b : Rat) ^ u = (b : Rat) ^ (u - 1) * b := by
      rw [← zpow_add_one₀ hb0.ne']; congr 1; omega
    have hd : |s| - |(m' : Rat) * (b : Rat) ^ e'| ≤ |(m' : Rat) * (b : Rat) ^ e' - s| := by
      rw [abs_sub_comm]; exact abs_sub_abs_le_abs_sub _ _
    have hMw : |s| = (M : Rat) * b * (b : Rat) ^ (u - 1) := by rw [habs, hw2]; ring
    have hMB : (b : Rat) ^ p ≤ M := by exact_mod_cast hm
    generalize (b : Rat) ^ (u - 1) = w at *
    have hB : (1 : Rat) ≤ (b : Rat) ^ p := one_le_pow₀ hb1
    rw [pow_succ] at hr' ⊢
    generalize (b : Rat) ^ p = B at *
    -- `M * b * w ≤ (M * b * w - (B * b - 1) * w) * (B * b)`
    have hkey : (M : Rat) * b * w ≤ ((M : Rat) * b * w - (B * b - 1) * w) * (B * b) := by
      have hd0 : 0 ≤ (M : Rat) - B := by linarith
      have hbB : 1 ≤ B * b := by nlinarith
      have : (M : Rat) * b ≤ ((M : Rat) * b - (B * b - 1)) * (B * b) := by nlinarith [mul_nonneg hd0 hb0.le]
      calc (M : Rat) * b * w ≤ ((M : Rat) * b - (B * b - 1)) * (B * b) * w := mul_le_mul_of_nonneg_right this hw.le
        _ = _ := by ring
    calc |s| = (M : Rat) * b * w := hMw
      _ ≤ ((M : Rat) * b * w - (B * b - 1) * w) * (B * b) := hkey
      _ ≤ _ := mul_le_mul_of_nonneg_right (by linarith) (by nlinarith)

/-- A number of 15 decimal digits is found again in the `double` next to it. -/
theorem sig_double {s : Rat} (hs : Short 10 15 s) : sig 10 15 (toDouble s) = s := by
  by_contra hne
  have h0 : s ≠ 0 := by
    rintro rfl
    exact hne (by decide +kernel)
  have hnear := (sig_nearest (b := 10) (P := 15) (by omega) (by omega) (toDouble s)).2 s hs
  have hsep := short_sep (b := 10) (P := 15) (by omega) (by omega) (sig_nearest (by omega) (by omega) (toDouble s)).1 hs hne
  have herr := sig_error (b := 2) (P := 53) (by omega) (by omega) s
  change |s - toDouble s| * _ ≤ |s| at herr
  have htri := abs_sub_le (sig 10 15 (toDouble s)) (toDouble s) s
  rw [abs_sub_comm (sig 10 15 (toDouble s)) (toDouble s)] at htri
  rw [abs_sub_comm (toDouble s) s] at htri hnear
  have hp : 0 < |s| := abs_pos.2 h0
  norm_num at herr hsep
  linarith

end Printf
end Iode
