import Verif.Model.Ras
import Mathlib.Algebra.BigOperators.Intervals
import Mathlib.Algebra.Order.BigOperators.Group.Finset
import Mathlib.Tactic.Ring
import Mathlib.Tactic.Linarith

/-!
# Lemmas on RAS balancing
-/
namespace Iode.Ras

open Finset

variable {K : Type} [Field K] [LinearOrder K] [IsStrictOrderedRing K]

set_option linter.unusedSectionVars false

theorem sumLoop_eq (f : Nat → K) : ∀ (n i : Nat) (s : K), sumLoop f n i s = s + ∑ k ∈ range n, f (i + k)
  | 0, _, s => by simp [sumLoop]
  | n + 1, i, s => by
    unfold sumLoop
    rw [sumLoop_eq f n (i + 1) (s + f i), sum_range_succ', add_assoc, Nat.add_zero, add_comm (f i)]
    congr 2
    exact sum_congr rfl fun k _ => by rw [show i + 1 + k = i + (k + 1) by omega]

theorem sumLoop_zero (f : Nat → K) (n : Nat) : sumLoop f n 0 0 = ∑ k ∈ range n, f k := by
  rw [sumLoop_eq, zero_add]
  exact sum_congr rfl fun k _ => by rw [Nat.zero_add]

theorem keepMax_spec (m f : K) : m ≤ keepMax m f ∧ |f - 1| ≤ keepMax m f ∧ (keepMax m f = m ∨ keepMax m f = |f - 1|) := by
  unfold keepMax
  split
  · next h => exact ⟨le_of_lt h, le_refl _, .inr rfl⟩
  · next h => exact ⟨le_refl _, not_lt.1 h, .inl rfl⟩

/-- What the loop over the columns does: column `j` is multiplied by `g j`. -/
theorem colLoop_spec (nr : Nat) (col : Nat → K) : ∀ (n j : Nat) (a : Mat K) (m : K),
    ∃ g : Nat → K, (∀ i c, (colLoop nr col n j a m).1 i c = a i c * g c) ∧
      (∀ c, g c = if j ≤ c ∧ c < j + n ∧ col c ≠ 0 then factor (col c) (∑ i ∈ range nr, a i c) else 1) ∧
      m ≤ (colLoop nr col n j a m).2 ∧
      (∀ c, j ≤ c → c < j + n → col c ≠ 0 → |g c - 1| ≤ (colLoop nr col n j a m).2) ∧
      ((colLoop nr col n j a m).2 = m ∨ ∃ c, j ≤ c ∧ c < j + n ∧ col c ≠ 0 ∧ (colLoop nr col n j a m).2 = |g c - 1|)
  | 0, j, a, m => ⟨fun _ => 1, fun i c => by simp [colLoop], fun c => by rw [if_neg (by omega)], le_refl _, fun c _ _ => by omega, .inl rfl⟩
  | n + 1, j, a, m => by
    unfold colLoop
    by_cases h0 : col j = 0
    · simp only [if_pos h0]
      obtain ⟨g, g1, g2, g3, g4, g5⟩ := colLoop_spec nr col n (j + 1) a m
      refine ⟨g, g1, fun c => ?_, g3, fun c h1 h2 h3 => g4 c ?_ (by omega) h3, ?_⟩
      · rw [g2 c]
        by_cases hc : c = j
        · subst hc
          rw [if_neg (by omega), if_neg (fun h => h.2.2 h0)]
        · by_cases hc' : j ≤ c ∧ c < j + (n + 1) ∧ col c ≠ 0
          · rw [if_pos ⟨by omega, by omega, hc'.2.2⟩, if_pos hc']
          · rw [if_neg (fun h => hc' ⟨by omega, by omega, h.2.2⟩), if_neg hc']
      · rcases Nat.lt_or_ge j c with h | h
        · omega
        · exact absurd (show col c = 0 by rw [show c = j by omega]; exact h0) h3
      · rcases g5 with h | ⟨c, c1, c2, c3, c4⟩
        · exact .inl h
        · exact .inr ⟨c, by omega, by omega, c3, c4⟩
    · simp only [if_neg h0]
      rw [sumLoop_zero]
      set f := factor (col j) (∑ i ∈ range nr, a i j) with hf
      obtain ⟨g, g1, g2, g3, g4, g5⟩ := colLoop_spec nr col n (j + 1) (fun i j' => if j' = j then a i j' * f else a i j') (keepMax m f)
      obtain ⟨m1, m2, m3⟩ := keepMax_spec m f
      have gj : g j = 1 := by rw [g2 j, if_neg (by omega)]
      refine ⟨fun c => if c = j then f else g c, fun i c => ?_, fun c => ?_, le_trans m1 g3, fun c h1 h2 h3 => ?_, ?_⟩
      · rw [g1 i c]
        by_cases hc : c = j
        · subst hc; simp [gj]
        · simp [hc]
      · by_cases hc : c = j
        · subst hc
          simp only [if_true]
          rw [if_pos ⟨le_refl _, by omega, h0⟩]
        · simp only [if_neg hc]
          rw [g2 c]
          simp only [if_neg hc]
          by_cases hc' : j ≤ c ∧ c < j + (n + 1) ∧ col c ≠ 0
          · rw [if_pos ⟨by omega, by omega, hc'.2.2⟩, if_pos hc']
          · rw [if_neg (fun h => hc' ⟨by omega, by omega, h.2.2⟩), if_neg hc']
      · by_cases hc : c = j
        · subst hc
          simp only [if_true]
          exact le_trans m2 g3
        · simp only [if_neg hc]
          exact g4 c (by omega) (by omega) h3
      · rcases g5 with h | ⟨c, c1, c2, c3, c4⟩
        · rw [h]
          rcases m3 with h' | h'
          · exact .inl h'
          · exact .inr ⟨j, le_refl _, by omega, h0, by simp [h']⟩
        · refine .inr ⟨c, by omega, by omega, c3, ?_⟩
          simp only [if_neg (show ¬ c = j by omega)]
          exact c4

/-- The loop over the rows is the loop over the columns of the transpose. -/
theorem rowLoop_eq (nc : Nat) (row : Nat → K) : ∀ (n i : Nat) (a : Mat K) (m : K),
    (rowLoop nc row n i a m).1 = (fun r c => (colLoop nc row n i (fun x y => a y x) m).1 c r) ∧
    (rowLoop nc row n i a m).2 = (colLoop nc row n i (fun x y => a y x) m).2
  | 0, _, _, _ => ⟨rfl, rfl⟩
  | n + 1, i, a, m => by
    unfold rowLoop colLoop
    by_cases h0 : row i = 0
    · simp only [if_pos h0]
      exact rowLoop_eq nc row n (i + 1) a m
    · simp only [if_neg h0]
      exact rowLoop_eq nc row n (i + 1) _ _

/-- One iteration: columns are multiplied by `g`, then rows by `h`. -/
theorem step_spec (nr nc : Nat) (row col : Nat → K) (a : Mat K) :
    ∃ g h : Nat → K, (∀ i c, (step nr nc row col a).1 i c = a i c * g c * h i) ∧
      (∀ c, g c = if c < nc ∧ col c ≠ 0 then factor (col c) (∑ i ∈ range nr, a i c) else 1) ∧
      (∀ i, h i = if i < nr ∧ row i ≠ 0 then factor (row i) (∑ c ∈ range nc, a i c * g c) else 1) ∧
      0 ≤ (step nr nc row col a).2 ∧
      (∀ c, |g c - 1| ≤ (step nr nc row col a).2) ∧ (∀ i, |h i - 1| ≤ (step nr nc row col a).2) ∧
      ((∀ c, g c = 1) → (∀ i, h i = 1) → (step nr nc row col a).2 = 0) := by
  obtain ⟨g, g1, g2, g3, g4, g5⟩ := colLoop_spec nr col nc 0 a 0
  obtain ⟨h, h1, h2, h3, h4, h5⟩ := colLoop_spec nc row nr 0 (fun x y => (colLoop nr col nc 0 a 0).1 y x) 0
  obtain ⟨r1, r2⟩ := rowLoop_eq nc row nr 0 (colLoop nr col nc 0 a 0).1 0
  have hmax : (step nr nc row col a).2 = max (colLoop nr col nc 0 a 0).2
      (colLoop nc row nr 0 (fun x y => (colLoop nr col nc 0 a 0).1 y x) 0).2 := by
    unfold step
    simp only
    rw [r2]
    split
    · next hh => exact (max_eq_left (le_of_lt hh)).symm
    · next hh => exact (max_eq_right (not_lt.1 hh)).symm
  refine ⟨g, h, fun i c => ?_, fun c => ?_, fun i => ?_, ?_, fun c => ?_, fun i => ?_, fun hg hh => ?_⟩
  · unfold step
    simp only
    rw [r1]
    simp only
    rw [h1, g1]
  · rw [g2 c]
    simp only [Nat.zero_le, true_and, Nat.zero_add]
  · rw [h2 i]
    simp only [Nat.zero_le, true_and, Nat.zero_add]
    by_cases hi : i < nr ∧ row i ≠ 0
    · rw [if_pos hi, if_pos hi]
      congr 1
      exact sum_congr rfl fun c _ => g1 i c
    · rw [if_neg hi, if_neg hi]
  · rw [hmax]
    exact le_trans g3 (le_max_left _ _)
  · rw [hmax]
    by_cases hc : c < nc ∧ col c ≠ 0
    · exact le_trans (g4 c (Nat.zero_le _) (by omega) hc.2) (le_max_left _ _)
    · have : g c = 1 := by
        rw [g2 c, if_neg]
        rintro ⟨_, x, y⟩
        exact hc ⟨by omega, y⟩
      rw [this, sub_self, abs_zero]
      exact le_trans g3 (le_max_left _ _)
  · rw [hmax]
    by_cases hi : i < nr ∧ row i ≠ 0
    · exact le_trans (h4 i (Nat.zero_le _) (by omega) hi.2) (le_max_right _ _)
    · have : h i = 1 := by
        rw [h2 i, if_neg]
        rintro ⟨_, x, y⟩
        exact hi ⟨by omega, y⟩
      rw [this, sub_self, abs_zero]
      exact le_trans h3 (le_max_right _ _)
  · rw [hmax]
    have e1 : (colLoop nr col nc 0 a 0).2 = 0 := by
      rcases g5 with x | ⟨c, _, _, _, x⟩
      · exact x
      · rw [x, hg c, sub_self, abs_zero]
    have e2 : (colLoop nc row nr 0 (fun x y => (colLoop nr col nc 0 a 0).1 y x) 0).2 = 0 := by
      rcases h5 with x | ⟨c, _, _, _, x⟩
      · exact x
      · rw [x, hh c, sub_self, abs_zero]
    rw [e1, e2, max_self]

/-- The result of a successful run is the result of one iteration from a matrix reached by iterations. -/
theorem iterate_last (nr nc : Nat) (row col : Nat → K) (eps : K) {P : Mat K → Prop} (hP : ∀ a, P a → P (step nr nc row col a).1) :
    ∀ (n : Nat) (a : Mat K), P a → ∃ b, P b ∧ iterate nr nc row col eps n a = step nr nc row col b
  | 0, a, h => ⟨a, h, rfl⟩
  | n + 1, a, h => by
    unfold iterate
    simp only
    split
    · exact iterate_last nr nc row col eps hP n _ (hP a h)
    · exact ⟨a, h, rfl⟩

theorem balance_last {nr nc : Nat} {row col : Nat → K} {eps : K} {n : Nat} {a a' : Mat K} {P : Mat K → Prop}
    (hP : ∀ a, P a → P (step nr nc row col a).1) (ha : P a) (h : balance nr nc row col n eps a = some a') :
    ∃ b, P b ∧ a' = (step nr nc row col b).1 ∧ (step nr nc row col b).2 ≤ eps ∧
      |∑ c ∈ range nc, col c - ∑ i ∈ range nr, row i| ≤ eps := by
  unfold balance at h
  rw [sumLoop_zero, sumLoop_zero] at h
  split at h
  · cases h
  next hs =>
  simp only at h
  obtain ⟨b, b1, b2⟩ := iterate_last nr nc row col eps hP n a ha
  rw [b2] at h
  split at h
  · cases h
  next hd =>
  cases h
  exact ⟨b, b1, rfl, not_lt.1 hd, not_lt.1 hs⟩

theorem factor_mul {t s : K} (h : s ≠ 0) : factor t s * s = t := by
  unfold factor
  rw [if_pos (abs_pos.2 h), div_mul_cancel₀ _ h]

theorem factor_nonneg {t s : K} (ht : 0 ≤ t) (hs : 0 ≤ s) : 0 ≤ factor t s := by
  unfold factor
  split
  · exact div_nonneg ht hs
  · exact le_refl _

theorem ne_zero_of_factor {t s e : K} (h : |factor t s - 1| ≤ e) (he : e < 1) : s ≠ 0 := by
  rintro rfl
  unfold factor at h
  rw [if_neg (by simp), zero_sub, abs_neg, abs_one] at h
  exact absurd h (not_le.2 he)

end Iode.Ras
