import Verif.Model.Hodrick
import Verif.Spec.Hodrick
import Verif.Lemmas.Linear
import Mathlib.Tactic.Linarith
import Mathlib.Tactic.Positivity
import Mathlib.Algebra.Order.BigOperators.Group.Finset
import Mathlib.Algebra.Order.BigOperators.Ring.Finset

/-!
# Lemmas on the Hodrick-Prescott filter
-/
namespace Iode.Hodrick

open Spec.Linear Spec.Hodrick Finset Lin

variable {K : Type} [Field K] [LinearOrder K]

/-- Coefficients of the bend at `i`, at `i - 1` and at `i - 2`. -/
def B0 (i j : Nat) : K := (if j = i then 1 else 0) + (if j = i + 1 then -2 else 0) + (if j = i + 2 then 1 else 0)
def B1 (i j : Nat) : K := (if j + 1 = i then 1 else 0) + (if j = i then -2 else 0) + (if j = i + 1 then 1 else 0)
def B2 (i j : Nat) : K := (if j + 2 = i then 1 else 0) + (if j + 1 = i then -2 else 0) + (if j = i then 1 else 0)

theorem B0_0 {i j : Nat} (h : j = i) : (B0 i j : K) = 1 := by
  simp only [B0]
  rw [if_pos (c := j = i) (by omega)]
  rw [if_neg (c := j = i + 1) (by omega)]
  rw [if_neg (c := j = i + 2) (by omega)]
  ring

theorem B0_1 {i j : Nat} (h : j = i + 1) : (B0 i j : K) = -2 := by
  simp only [B0]
  rw [if_neg (c := j = i) (by omega)]
  rw [if_pos (c := j = i + 1) (by omega)]
  rw [if_neg (c := j = i + 2) (by omega)]
  ring

theorem B0_2 {i j : Nat} (h : j = i + 2) : (B0 i j : K) = 1 := by
  simp only [B0]
  rw [if_neg (c := j = i) (by omega)]
  rw [if_neg (c := j = i + 1) (by omega)]
  rw [if_pos (c := j = i + 2) (by omega)]
  ring

theorem B0_z {i j : Nat} (h : ¬ j = i ∧ ¬ j = i + 1 ∧ ¬ j = i + 2) : (B0 i j : K) = 0 := by
  simp only [B0]
  rw [if_neg (c := j = i) (by omega)]
  rw [if_neg (c := j = i + 1) (by omega)]
  rw [if_neg (c := j = i + 2) (by omega)]
  ring

theorem B1_0 {i j : Nat} (h : j + 1 = i) : (B1 i j : K) = 1 := by
  simp only [B1]
  rw [if_pos (c := j + 1 = i) (by omega)]
  rw [if_neg (c := j = i) (by omega)]
  rw [if_neg (c := j = i + 1) (by omega)]
  ring

theorem B1_1 {i j : Nat} (h : j = i) : (B1 i j : K) = -2 := by
  simp only [B1]
  rw [if_neg (c := j + 1 = i) (by omega)]
  rw [if_pos (c := j = i) (by omega)]
  rw [if_neg (c := j = i + 1) (by omega)]
  ring

theorem B1_2 {i j : Nat} (h : j = i + 1) : (B1 i j : K) = 1 := by
  simp only [B1]
  rw [if_neg (c := j + 1 = i) (by omega)]
  rw [if_neg (c := j = i) (by omega)]
  rw [if_pos (c := j = i + 1) (by omega)]
  ring

theorem B1_z {i j : Nat} (h : ¬ j + 1 = i ∧ ¬ j = i ∧ ¬ j = i + 1) : (B1 i j : K) = 0 := by
  simp only [B1]
  rw [if_neg (c := j + 1 = i) (by omega)]
  rw [if_neg (c := j = i) (by omega)]
  rw [if_neg (c := j = i + 1) (by omega)]
  ring

theorem B2_0 {i j : Nat} (h : j + 2 = i) : (B2 i j : K) = 1 := by
  simp only [B2]
  rw [if_pos (c := j + 2 = i) (by omega)]
  rw [if_neg (c := j + 1 = i) (by omega)]
  rw [if_neg (c := j = i) (by omega)]
  ring

theorem B2_1 {i j : Nat} (h : j + 1 = i) : (B2 i j : K) = -2 := by
  simp only [B2]
  rw [if_neg (c := j + 2 = i) (by omega)]
  rw [if_pos (c := j + 1 = i) (by omega)]
  rw [if_neg (c := j = i) (by omega)]
  ring

theorem B2_2 {i j : Nat} (h : j = i) : (B2 i j : K) = 1 := by
  simp only [B2]
  rw [if_neg (c := j + 2 = i) (by omega)]
  rw [if_neg (c := j + 1 = i) (by omega)]
  rw [if_pos (c := j = i) (by omega)]
  ring

theorem B2_z {i j : Nat} (h : ¬ j + 2 = i ∧ ¬ j + 1 = i ∧ ¬ j = i) : (B2 i j : K) = 0 := by
  simp only [B2]
  rw [if_neg (c := j + 2 = i) (by omega)]
  rw [if_neg (c := j + 1 = i) (by omega)]
  rw [if_neg (c := j = i) (by omega)]
  ring

/-- The system when the first `r` unknowns have been eliminated. -/
def blk (nb : Nat) (l : K) (r : Nat) (P Q S : K) (i j : Nat) : K :=
  (if i = j ∧ r + 2 ≤ i then 1 else 0)
  + l * ((if i + 2 < nb then B0 i j else 0) + (if r + 1 ≤ i ∧ i + 1 < nb then -2 * B1 i j else 0)
      + (if r + 2 ≤ i then B2 i j else 0))
  + (if i = r ∧ j = r then P else if (i = r ∧ j = r + 1) ∨ (i = r + 1 ∧ j = r) then Q
      else if i = r + 1 ∧ j = r + 1 then S else 0)

theorem diag_eq : ∀ (c i : Nat) (a : Nat → Nat → K) (i' j' : Nat),
    diag c i a i' j' = if i ≤ i' ∧ i' < i + c ∧ i' = j' then a i' j' + 1 else a i' j'
  | 0, i, a, i', j' => by rw [diag, if_neg (by omega)]
  | c + 1, i, a, i', j' => by
    rw [diag, diag_eq c (i + 1)]
    simp only [put]
    by_cases h : i' = i ∧ j' = i
    · obtain ⟨rfl, rfl⟩ := h
      rw [if_neg (by omega), if_pos ⟨rfl, rfl⟩, if_pos (by omega)]
    · rw [if_neg h]
      by_cases h' : i + 1 ≤ i' ∧ i' < i + 1 + c ∧ i' = j'
      · rw [if_pos h', if_pos (by omega)]
      · rw [if_neg h', if_neg (by omega)]

theorem midRow_eq (l : K) {i : Nat} (hi : 2 ≤ i) (a : Nat → Nat → K) (i' j' : Nat) :
    midRow l i 5 0 a i' j' = if i' = i ∧ i ≤ j' + 2 ∧ j' ≤ i + 2 then l * yn (j' + 2 - i) else a i' j' := by
  simp only [midRow, put]
  split_ifs <;> first | rfl | (exfalso; omega) | (congr 2; omega)

theorem midRows_eq (l : K) : ∀ (c i : Nat) (a : Nat → Nat → K), 2 ≤ i → ∀ i' j',
    midRows l c i a i' j' = if i ≤ i' ∧ i' < i + c ∧ i' ≤ j' + 2 ∧ j' ≤ i' + 2 then l * yn (j' + 2 - i') else a i' j'
  | 0, i, a, _, i', j' => by rw [midRows, if_neg (by omega)]
  | c + 1, i, a, hi, i', j' => by
    rw [midRows, midRows_eq l c (i + 1) _ (by omega), midRow_eq l hi]
    by_cases h : i' = i
    · subst h
      rw [if_neg (by omega)]
      by_cases hb : i' ≤ j' + 2 ∧ j' ≤ i' + 2
      · rw [if_pos ⟨rfl, hb⟩, if_pos (by omega)]
      · rw [if_neg (by omega), if_neg (by omega)]
    · rw [if_neg (c := i' = i ∧ i ≤ j' + 2 ∧ j' ≤ i + 2) (by omega)]
      by_cases h' : i + 1 ≤ i' ∧ i' < i + 1 + c ∧ i' ≤ j' + 2 ∧ j' ≤ i' + 2
      · rw [if_pos h', if_pos (by omega)]
      · rw [if_neg h', if_neg (by omega)]

theorem ends1_eq {nb : Nat} (hnb : 4 ≤ nb) (l : K) (a : Nat → Nat → K) (i j : Nat) (hj : j < nb) :
    ends1 nb l 3 0 a i j
      = if i = 0 ∧ j < 3 then l * y1 j else if i = nb - 1 ∧ nb - 1 - j < 3 then l * y1 (nb - 1 - j) else a i j := by
  simp only [ends1, put]
  split_ifs <;> first | rfl | (exfalso; omega) | (congr 2; omega)

theorem ends2_eq {nb : Nat} (hnb : 4 ≤ nb) (l : K) (a : Nat → Nat → K) (i j : Nat) (hj : j < nb) :
    ends2 nb l 4 0 a i j
      = if i = 1 ∧ j < 4 then l * y2 j else if i = nb - 2 ∧ nb - 1 - j < 4 then l * y2 (nb - 1 - j) else a i j := by
  simp only [ends2, put]
  split_ifs <;> first | rfl | (exfalso; omega) | (congr 2; omega)

/-- The matrix before one is added on the diagonal. -/
theorem rows_eq {nb : Nat} (hnb : 4 ≤ nb) (l : K) {i j : Nat} (hi : i < nb) (hj : j < nb) :
    midRows l (nb - 4) 2 (ends2 nb l 4 0 (ends1 nb l 3 0 fun _ _ => 0)) i j
      = l * ((if i + 2 < nb then B0 i j else 0) + (if 1 ≤ i ∧ i + 1 < nb then -2 * B1 i j else 0)
          + (if 2 ≤ i then B2 i j else 0)) := by
  rw [midRows_eq l _ 2 _ (le_refl _), ends2_eq hnb l _ i j hj, ends1_eq hnb l _ i j hj]
  rcases (by omega : (2 ≤ i ∧ i + 2 < nb) ∨ i = 0 ∨ i = 1 ∨ i + 2 = nb ∨ i + 1 = nb) with h | h | h | h | h
  · rw [if_neg (c := i = 1 ∧ j < 4) (by omega), if_neg (c := i = nb - 2 ∧ nb - 1 - j < 4) (by omega),
      if_neg (c := i = 0 ∧ j < 3) (by omega), if_neg (c := i = nb - 1 ∧ nb - 1 - j < 3) (by omega),
      if_pos (c := i + 2 < nb) h.2, if_pos (c := 1 ≤ i ∧ i + 1 < nb) (by omega), if_pos (c := 2 ≤ i) h.1]
    by_cases hb : i ≤ j + 2 ∧ j ≤ i + 2
    · rw [if_pos (by omega)]
      obtain ⟨k, rfl⟩ : ∃ k, i = k + 2 := ⟨i - 2, by omega⟩
      rcases (by omega : j = k ∨ j = k + 1 ∨ j = k + 2 ∨ j = k + 3 ∨ j = k + 4) with h' | h' | h' | h' | h'
      · rw [B0_z (by omega), B1_z (by omega), B2_0 (by omega), show j + 2 - (k + 2) = 0 by omega]
        simp only [yn]
        ring
      · rw [B0_z (by omega), B1_0 (by omega), B2_1 (by omega), show j + 2 - (k + 2) = 1 by omega]
        simp only [yn]
        ring
      · rw [B0_0 (by omega), B1_1 (by omega), B2_2 (by omega), show j + 2 - (k + 2) = 2 by omega]
        simp only [yn]
        ring
      · rw [B0_1 (by omega), B1_2 (by omega), B2_z (by omega), show j + 2 - (k + 2) = 3 by omega]
        simp only [yn]
        ring
      · rw [B0_2 (by omega), B1_z (by omega), B2_z (by omega), show j + 2 - (k + 2) = 4 by omega]
        simp only [yn]
        ring
    · rw [if_neg (by omega), B0_z (by omega), B1_z (by omega), B2_z (by omega)]
      ring
  · rw [if_neg (c := 2 ≤ i ∧ i < 2 + (nb - 4) ∧ i ≤ j + 2 ∧ j ≤ i + 2) (by omega), if_neg (c := i = 1 ∧ j < 4) (by omega),
      if_neg (c := i = nb - 2 ∧ nb - 1 - j < 4) (by omega), if_neg (c := i = nb - 1 ∧ nb - 1 - j < 3) (by omega),
      if_pos (c := i + 2 < nb) (by omega), if_neg (c := 1 ≤ i ∧ i + 1 < nb) (by omega), if_neg (c := 2 ≤ i) (by omega)]
    rcases (by omega : j = 0 ∨ j = 1 ∨ j = 2 ∨ 3 ≤ j) with h' | h' | h' | h'
    · rw [if_pos (by omega), B0_0 (by omega), h']
      simp only [y1]
      ring
    · rw [if_pos (by omega), B0_1 (by omega), h']
      simp only [y1]
      ring
    · rw [if_pos (by omega), B0_2 (by omega), h']
      simp only [y1]
      ring
    · rw [if_neg (by omega), B0_z (by omega)]
      ring
  · rw [if_neg (c := 2 ≤ i ∧ i < 2 + (nb - 4) ∧ i ≤ j + 2 ∧ j ≤ i + 2) (by omega),
      if_neg (c := i = nb - 2 ∧ nb - 1 - j < 4) (by omega), if_neg (c := i = nb - 1 ∧ nb - 1 - j < 3) (by omega),
      if_neg (c := i = 0 ∧ j < 3) (by omega),
      if_pos (c := i + 2 < nb) (by omega), if_pos (c := 1 ≤ i ∧ i + 1 < nb) (by omega), if_neg (c := 2 ≤ i) (by omega)]
    rcases (by omega : j = 0 ∨ j = 1 ∨ j = 2 ∨ j = 3 ∨ 4 ≤ j) with h' | h' | h' | h' | h'
    · rw [if_pos (by omega), B0_z (by omega), B1_0 (by omega), h']
      simp only [y2]
      ring
    · rw [if_pos (by omega), B0_0 (by omega), B1_1 (by omega), h']
      simp only [y2]
      ring
    · rw [if_pos (by omega), B0_1 (by omega), B1_2 (by omega), h']
      simp only [y2]
      ring
    · rw [if_pos (by omega), B0_2 (by omega), B1_z (by omega), h']
      simp only [y2]
      ring
    · rw [if_neg (by omega), B0_z (by omega), B1_z (by omega)]
      ring
  · rw [if_neg (c := 2 ≤ i ∧ i < 2 + (nb - 4) ∧ i ≤ j + 2 ∧ j ≤ i + 2) (by omega), if_neg (c := i = 1 ∧ j < 4) (by omega),
      if_neg (c := i = nb - 1 ∧ nb - 1 - j < 3) (by omega),
      if_neg (c := i = 0 ∧ j < 3) (by omega),
      if_neg (c := i + 2 < nb) (by omega), if_pos (c := 1 ≤ i ∧ i + 1 < nb) (by omega), if_pos (c := 2 ≤ i) (by omega)]
    rcases (by omega : j = i + 1 ∨ j = i ∨ j + 1 = i ∨ j + 2 = i ∨ j + 3 ≤ i) with h' | h' | h' | h' | h'
    · rw [if_pos (by omega), B1_2 (by omega), B2_z (by omega), show nb - 1 - j = 0 by omega]
      simp only [y2]
      ring
    · rw [if_pos (by omega), B1_1 (by omega), B2_2 (by omega), show nb - 1 - j = 1 by omega]
      simp only [y2]
      ring
    · rw [if_pos (by omega), B1_0 (by omega), B2_1 (by omega), show nb - 1 - j = 2 by omega]
      simp only [y2]
      ring
    · rw [if_pos (by omega), B1_z (by omega), B2_0 (by omega), show nb - 1 - j = 3 by omega]
      simp only [y2]
      ring
    · rw [if_neg (by omega), B1_z (by omega), B2_z (by omega)]
      ring
  · rw [if_neg (c := 2 ≤ i ∧ i < 2 + (nb - 4) ∧ i ≤ j + 2 ∧ j ≤ i + 2) (by omega), if_neg (c := i = 1 ∧ j < 4) (by omega),
      if_neg (c := i = nb - 2 ∧ nb - 1 - j < 4) (by omega),
      if_neg (c := i = 0 ∧ j < 3) (by omega),
      if_neg (c := i + 2 < nb) (by omega), if_neg (c := 1 ≤ i ∧ i + 1 < nb) (by omega), if_pos (c := 2 ≤ i) (by omega)]
    rcases (by omega : j = i ∨ j + 1 = i ∨ j + 2 = i ∨ j + 3 ≤ i) with h' | h' | h' | h'
    · rw [if_pos (by omega), B2_2 (by omega), show nb - 1 - j = 0 by omega]
      simp only [y1]
      ring
    · rw [if_pos (by omega), B2_1 (by omega), show nb - 1 - j = 1 by omega]
      simp only [y1]
      ring
    · rw [if_pos (by omega), B2_0 (by omega), show nb - 1 - j = 2 by omega]
      simp only [y1]
      ring
    · rw [if_neg (by omega), B2_z (by omega)]
      ring

theorem weights_eq {nb : Nat} (hnb : 4 ≤ nb) (l : K) {i j : Nat} (hi : i < nb) (hj : j < nb) :
    weights nb l i j = blk nb l 0 1 0 1 i j := by
  rw [weights, diag_eq, rows_eq hnb l hi hj, blk]
  by_cases h : i = j
  · subst h
    rw [if_pos (by omega)]
    rcases (by omega : i = 0 ∨ i = 1 ∨ 2 ≤ i) with rfl | rfl | h2
    · simp
    · simp
    · rw [if_pos (c := i = i ∧ 0 + 2 ≤ i) (by omega), if_neg (c := i = 0 ∧ i = 0) (by omega),
        if_neg (c := (i = 0 ∧ i = 0 + 1) ∨ (i = 0 + 1 ∧ i = 0)) (by omega),
        if_neg (c := i = 0 + 1 ∧ i = 0 + 1) (by omega)]
      simp only [Nat.zero_add]
      ring
  · rw [if_neg (by omega), if_neg (c := i = j ∧ 0 + 2 ≤ i) (by omega), if_neg (c := i = 0 ∧ j = 0) (by omega)]
    simp only [Nat.zero_add]
    have : (if i = 1 ∧ j = 1 then (1 : K) else 0) = 0 := if_neg (by omega)
    rw [this]
    simp only [ite_self, add_zero, zero_add]

/-- The three parts of the block, by row. -/
theorem blk_row0 {nb : Nat} (l : K) {r : Nat} (P Q S : K) {i : Nat} (j : Nat) (h : i = r) :
    blk nb l r P Q S i j = l * (if i + 2 < nb then B0 i j else 0) + (if j = r then P else if j = r + 1 then Q else 0) := by
  subst h
  rw [blk, if_neg (c := i = j ∧ i + 2 ≤ i) (by omega), if_neg (c := i + 1 ≤ i ∧ i + 1 < nb) (by omega),
    if_neg (c := i + 2 ≤ i) (by omega)]
  have : (if i = i ∧ j = i then P else if i = i ∧ j = i + 1 ∨ i = i + 1 ∧ j = i then Q
      else if i = i + 1 ∧ j = i + 1 then S else 0) = (if j = i then P else if j = i + 1 then Q else 0) := by
    split_ifs <;> first | rfl | (exfalso; omega)
  rw [this]
  ring

theorem blk_row1 {nb : Nat} (l : K) {r : Nat} (P Q S : K) {i : Nat} (j : Nat) (h : i = r + 1) :
    blk nb l r P Q S i j = l * ((if i + 2 < nb then B0 i j else 0) + (if i + 1 < nb then -2 * B1 i j else 0))
      + (if j = r then Q else if j = r + 1 then S else 0) := by
  subst h
  rw [blk, if_neg (c := r + 1 = j ∧ r + 2 ≤ r + 1) (by omega), if_neg (c := r + 2 ≤ r + 1) (by omega)]
  have : (if r + 1 = r ∧ j = r then P else if r + 1 = r ∧ j = r + 1 ∨ r + 1 = r + 1 ∧ j = r then Q
      else if r + 1 = r + 1 ∧ j = r + 1 then S else 0) = (if j = r then Q else if j = r + 1 then S else 0) := by
    split_ifs <;> first | rfl | (exfalso; omega)
  have h2 : (if r + 1 ≤ r + 1 ∧ r + 1 + 1 < nb then -2 * B1 (r + 1) j else (0 : K))
      = (if r + 1 + 1 < nb then -2 * B1 (r + 1) j else 0) := by
    split_ifs <;> first | rfl | (exfalso; omega)
  rw [this, h2]
  ring

theorem blk_row2 {nb : Nat} (l : K) {r : Nat} (P Q S : K) {i : Nat} (j : Nat) (h : r + 2 ≤ i) :
    blk nb l r P Q S i j = (if i = j then 1 else 0)
      + l * ((if i + 2 < nb then B0 i j else 0) + (if i + 1 < nb then -2 * B1 i j else 0) + B2 i j) := by
  rw [blk]
  have h0 : (if i = r ∧ j = r then P else if i = r ∧ j = r + 1 ∨ i = r + 1 ∧ j = r then Q
      else if i = r + 1 ∧ j = r + 1 then S else 0) = 0 := by
    split_ifs <;> first | rfl | (exfalso; omega)
  have h1 : (if i = j ∧ r + 2 ≤ i then (1 : K) else 0) = if i = j then 1 else 0 := by
    split_ifs <;> first | rfl | (exfalso; omega)
  have h2 : (if r + 1 ≤ i ∧ i + 1 < nb then -2 * B1 i j else (0 : K)) = (if i + 1 < nb then -2 * B1 i j else 0) := by
    split_ifs <;> first | rfl | (exfalso; omega)
  rw [h0, h1, h2, if_pos h]
  ring

/-- Eliminating one unknown. -/
theorem blk_step {nb : Nat} (l : K) {r : Nat} (hr : r + 2 < nb) (P Q S : K) {i j : Nat} (hi : r + 1 ≤ i) (hj : r + 1 ≤ j) :
    blk nb l r P Q S i j - blk nb l r P Q S i r / blk nb l r P Q S r r * blk nb l r P Q S r j
      = blk nb l (r + 1) (S + 4 * l - (Q - 2 * l) / (P + l) * (Q - 2 * l)) (-2 * l - l / (P + l) * (Q - 2 * l))
          (1 + l - l / (P + l) * l) i j := by
  have hrr : blk nb l r P Q S r r = P + l := by
    rw [blk_row0 l P Q S r rfl, if_pos hr, if_pos rfl, B0_0 rfl]
    ring
  have hrow : blk nb l r P Q S r j = if j = r + 1 then Q - 2 * l else if j = r + 2 then l else 0 := by
    rw [blk_row0 l P Q S j rfl, if_pos hr, if_neg (c := j = r) (by omega)]
    rcases (by omega : j = r + 1 ∨ j = r + 2 ∨ r + 3 ≤ j) with h | h | h
    · rw [if_pos h, if_pos h, B0_1 h]; ring
    · rw [if_neg (by omega), if_neg (by omega), if_pos h, B0_2 h]; ring
    · rw [if_neg (by omega), if_neg (by omega), if_neg (by omega), B0_z (by omega)]; ring
  have hcol : blk nb l r P Q S i r = if i = r + 1 then Q - 2 * l else if i = r + 2 then l else 0 := by
    rcases (by omega : i = r + 1 ∨ i = r + 2 ∨ r + 3 ≤ i) with h | h | h
    · rw [blk_row1 l P Q S r h, if_pos (c := r = r) rfl, if_pos h, B0_z (by omega), B1_0 (by omega),
        if_pos (c := i + 1 < nb) (by omega)]
      simp only [ite_self]
      ring
    · rw [blk_row2 l P Q S r (by omega), if_neg (c := i = r) (by omega), if_neg (c := i = r + 1) (by omega), if_pos h,
        B0_z (by omega), B1_z (by omega), B2_0 (by omega)]
      simp only [ite_self, mul_zero]
      ring
    · rw [blk_row2 l P Q S r (by omega), if_neg (c := i = r) (by omega), if_neg (c := i = r + 1) (by omega),
        if_neg (c := i = r + 2) (by omega), B0_z (by omega), B1_z (by omega), B2_z (by omega)]
      simp only [ite_self, mul_zero]
      ring
  rw [hrr, hrow, hcol]
  rcases (by omega : i = r + 1 ∨ i = r + 2 ∨ r + 3 ≤ i) with h | h | h
  · rw [blk_row1 l P Q S j h, blk_row0 l _ _ _ j h, if_pos h, if_pos (c := i + 1 < nb) (by omega),
      if_neg (c := j = r) (by omega)]
    rcases (by omega : j = r + 1 ∨ j = r + 2 ∨ r + 3 ≤ j) with h' | h' | h'
    · rw [B1_1 (by omega)]
      simp only [if_pos h']
      ring
    · rw [B1_2 (by omega)]
      simp only [if_neg (show ¬ j = r + 1 by omega), if_pos h', if_pos (show j = r + 1 + 1 by omega)]
      ring
    · rw [B1_z (by omega)]
      simp only [if_neg (show ¬ j = r + 1 by omega), if_neg (show ¬ j = r + 2 by omega),
        if_neg (show ¬ j = r + 1 + 1 by omega)]
      ring
  · rw [blk_row2 l P Q S j (by omega), blk_row1 l _ _ _ j (by omega), if_neg (c := i = r + 1) (by omega), if_pos h]
    rcases (by omega : j = r + 1 ∨ j = r + 2 ∨ r + 3 ≤ j) with h' | h' | h'
    · rw [B2_1 (by omega)]
      simp only [if_neg (show ¬ i = j by omega), if_pos h']
      ring
    · rw [B2_2 (by omega)]
      simp only [if_pos (show i = j by omega), if_neg (show ¬ j = r + 1 by omega), if_pos h',
        if_pos (show j = r + 1 + 1 by omega)]
      ring
    · rw [B2_z (by omega)]
      simp only [if_neg (show ¬ i = j by omega), if_neg (show ¬ j = r + 1 by omega), if_neg (show ¬ j = r + 2 by omega),
        if_neg (show ¬ j = r + 1 + 1 by omega)]
      ring
  · rw [blk_row2 l P Q S j (by omega), blk_row2 l _ _ _ j (by omega), if_neg (c := i = r + 1) (by omega),
      if_neg (c := i = r + 2) (by omega)]
    ring

variable [IsStrictOrderedRing K]

/-- What the values of a block satisfy. -/
structure Inv (e l P Q S : K) : Prop where
  P1 : 1 ≤ P
  S1 : 1 ≤ S
  Q0 : Q ≤ 0
  PQ : 0 ≤ P + Q
  D : P ≤ S * P - Q * Q
  small : Q = 0 ∨ e ≤ -Q

theorem Inv.next {e l P Q S : K} (he : 0 < e) (he1 : 2 * e ≤ 1) (hl : l = 0 ∨ 2 * e ≤ l) (h : Inv e l P Q S) :
    Inv e l (S + 4 * l - (Q - 2 * l) / (P + l) * (Q - 2 * l)) (-2 * l - l / (P + l) * (Q - 2 * l))
      (1 + l - l / (P + l) * l) := by
  have hl0 : 0 ≤ l := by rcases hl with h | h <;> linarith
  have hp : 0 < P + l := by have := h.P1; linarith
  have hpn : P + l ≠ 0 := ne_of_gt hp
  obtain ⟨P1, S1, Q0, PQ, D, small⟩ := h
  have e1 : S + 4 * l - (Q - 2 * l) / (P + l) * (Q - 2 * l) = (S * P - Q * Q + l * (S + 4 * (P + Q))) / (P + l) := by
    field_simp
    ring
  have e2 : -2 * l - l / (P + l) * (Q - 2 * l) = -(l * (2 * P + Q)) / (P + l) := by
    field_simp
    ring
  have e3 : 1 + l - l / (P + l) * l = 1 + l * P / (P + l) := by
    field_simp
    ring
  have e4 : (S + 4 * l - (Q - 2 * l) / (P + l) * (Q - 2 * l)) + (-2 * l - l / (P + l) * (Q - 2 * l))
      = (S * P - Q * Q + l * (S + P + 2 * Q + (P + Q))) / (P + l) := by
    field_simp
    ring
  have e5 : (1 + l - l / (P + l) * l) * (S + 4 * l - (Q - 2 * l) / (P + l) * (Q - 2 * l))
      - (-2 * l - l / (P + l) * (Q - 2 * l)) * (-2 * l - l / (P + l) * (Q - 2 * l))
      = (S + 4 * l - (Q - 2 * l) / (P + l) * (Q - 2 * l)) + l * (S * P - Q * Q) / (P + l) := by
    field_simp
    ring
  have hP0 : 0 < P := by linarith
  have hsum : 0 ≤ S + P + 2 * Q := by
    have h1 : 0 ≤ P * (S + P + 2 * Q) := by nlinarith [mul_self_nonneg (P + Q)]
    exact nonneg_of_mul_nonneg_right h1 hP0
  refine ⟨?_, ?_, ?_, ?_, ?_, ?_⟩
  · rw [e1, le_div_iff₀ hp]
    nlinarith
  · rw [e3]
    have : 0 ≤ l * P / (P + l) := by positivity
    linarith
  · rw [e2]
    apply div_nonpos_of_nonpos_of_nonneg _ hp.le
    nlinarith
  · rw [e4]
    apply div_nonneg _ hp.le
    have := mul_nonneg hl0 (add_nonneg hsum PQ)
    linarith
  · rw [e5]
    have : 0 ≤ l * (S * P - Q * Q) / (P + l) := div_nonneg (mul_nonneg hl0 (by linarith)) hp.le
    linarith
  · rw [e2]
    rcases hl with h | h
    · left
      rw [h]; simp
    · right
      rw [← neg_div, neg_neg, le_div_iff₀ hp]
      nlinarith [mul_nonneg hl0 PQ, mul_le_mul_of_nonneg_left P1 hl0]

theorem isZero_eq {x : K} (h : x = 0 ∨ 1 / 10 ^ 25 ≤ |x|) : isZero x = exact0 x := by
  rcases h with h | h
  · subst h
    simp [isZero, exact0]
  · have h0 : x ≠ 0 := by
      rintro rfl
      rw [abs_zero] at h
      have : (0 : K) < 1 / 10 ^ 25 := by positivity
      linarith
    rw [isZero, exact0, decide_eq_false h0, decide_eq_false (not_lt.2 h)]

/-- On the matrix of the filter the elimination never meets a number between zero and `1e-25`. -/
theorem ut_same {nb : Nat} {l : K} (hl : l = 0 ∨ 2 * (1 / 10 ^ 25) ≤ l) :
    ∀ (k r : Nat) (s : Sys K) (P Q S : K), r + k + 2 = nb → Inv (1 / 10 ^ 25) l P Q S →
      (∀ i j, r ≤ i → r ≤ j → i < nb → j < nb → s.a i j = blk nb l r P Q S i j) →
      ut isZero nb (k + 1) r s = ut exact0 nb (k + 1) r s := by
  have he : (0 : K) < 1 / 10 ^ 25 := by positivity
  have he1 : 2 * (1 / 10 ^ 25 : K) ≤ 1 := by norm_num
  have hl0 : 0 ≤ l := by rcases hl with h | h <;> linarith
  have hbig : ∀ x : K, 1 ≤ x → isZero x = false ∧ exact0 x = false := by
    intro x hx
    have h1 : (1 : K) / 10 ^ 25 ≤ |x| := by rw [abs_of_nonneg (by linarith)]; linarith
    have h2 : exact0 x = false := exact0_false.2 (by rintro rfl; linarith)
    exact ⟨by rw [isZero_eq (Or.inr h1), h2], h2⟩
  intro k
  induction k with
  | zero =>
    intro r s P Q S hk hI hs
    have hrr : s.a r r = P := by
      rw [hs r r (le_refl _) (le_refl _) (by omega) (by omega), blk_row0 l P Q S r rfl, if_neg (by omega), if_pos rfl]
      ring
    have h10 : s.a (r + 1) r = Q := by
      rw [hs (r + 1) r (by omega) (le_refl _) (by omega) (by omega), blk_row1 l P Q S r rfl, if_neg (by omega),
        if_neg (by omega), if_pos rfl]
      ring
    have h01 : s.a r (r + 1) = Q := by
      rw [hs r (r + 1) (le_refl _) (by omega) (by omega) (by omega), blk_row0 l P Q S _ rfl, if_neg (by omega),
        if_neg (by omega), if_pos rfl]
      ring
    have h11 : s.a (r + 1) (r + 1) = S := by
      rw [hs (r + 1) (r + 1) (by omega) (by omega) (by omega) (by omega), blk_row1 l P Q S _ rfl, if_neg (by omega),
        if_neg (by omega), if_neg (by omega), if_pos rfl]
      ring
    have hpiv := hbig (s.a r r) (by rw [hrr]; exact hI.P1)
    rw [ut, ut, hpiv.1, hpiv.2]
    simp only [Bool.false_eq_true, if_false]
    have hsm : Q = 0 ∨ 1 / 10 ^ 25 ≤ |Q| := hI.small.imp id fun h => by rwa [abs_of_nonpos hI.Q0]
    have hc : clear isZero r (nb - (r + 1)) (r + 1) s = clear exact0 r (nb - (r + 1)) (r + 1) s := by
      apply clear_congr _ _ _ _ _ (by omega)
      intro i h1 h2
      have : i = r + 1 := by omega
      subst this
      rw [h10]
      exact isZero_eq hsm
    rw [hc]
    rw [ut, ut]
    have hlast : (clear exact0 r (nb - (r + 1)) (r + 1) s).a (nb - 1) (nb - 1) = S - Q / P * Q := by
      rw [clear_a exact0 _ _ s (by omega) (fun i _ _ => exact0_iff _), if_pos (by omega),
        show nb - 1 = r + 1 by omega, h11, h10, h01, hrr]
    have h1 : 1 ≤ S - Q / P * Q := by
      have hP0 : 0 < P := by linarith [hI.P1]
      have : S - Q / P * Q = (S * P - Q * Q) / P := by field_simp
      rw [this, le_div_iff₀ hP0]
      linarith [hI.D]
    rw [hlast, (hbig _ h1).1, (hbig _ h1).2]
  | succ k ih =>
    intro r s P Q S hk hI hs
    have hr : r + 2 < nb := by omega
    have hrr : s.a r r = P + l := by
      rw [hs r r (le_refl _) (le_refl _) (by omega) (by omega), blk_row0 l P Q S r rfl, if_pos hr, if_pos rfl, B0_0 rfl]
      ring
    have hpiv := hbig (s.a r r) (by rw [hrr]; linarith [hI.P1])
    rw [ut, ut, hpiv.1, hpiv.2]
    simp only [Bool.false_eq_true, if_false]
    have hc : clear isZero r (nb - (r + 1)) (r + 1) s = clear exact0 r (nb - (r + 1)) (r + 1) s := by
      apply clear_congr _ _ _ _ _ (by omega)
      intro i h1 h2
      apply isZero_eq
      rw [hs i r (by omega) (le_refl _) (by omega) (by omega)]
      rcases (by omega : i = r + 1 ∨ i = r + 2 ∨ r + 3 ≤ i) with h | h | h
      · have hv : blk nb l r P Q S i r = Q - 2 * l := by
          rw [blk_row1 l P Q S r h, if_pos (c := r = r) rfl, B0_z (by omega), B1_0 (by omega),
            if_pos (c := i + 1 < nb) (by omega)]
          simp only [ite_self]
          ring
        rw [hv, abs_of_nonpos (by linarith [hI.Q0])]
        rcases hl with h0 | h0
        · rcases hI.small with h1 | h1
          · left; rw [h0, h1]; ring
          · right; rw [h0]; linarith
        · right; linarith [hI.Q0]
      · have hv : blk nb l r P Q S i r = l := by
          rw [blk_row2 l P Q S r (by omega), if_neg (by omega), B0_z (by omega), B1_z (by omega), B2_0 (by omega)]
          simp only [ite_self, mul_zero]
          ring
        rw [hv, abs_of_nonneg hl0]
        exact hl.imp id fun h => by linarith
      · left
        rw [blk_row2 l P Q S r (by omega), if_neg (by omega), B0_z (by omega), B1_z (by omega), B2_z (by omega)]
        simp only [ite_self, mul_zero]
        ring
    rw [hc]
    apply ih (r + 1) _ _ _ _ (by omega) (hI.next he he1 hl)
    intro i j h1 h2 h3 h4
    rw [clear_a exact0 _ _ s (by omega) (fun i _ _ => exact0_iff _), if_pos (by omega),
      hs i j (by omega) (by omega) h3 h4, hs i r (by omega) (le_refl _) h3 (by omega),
      hs r r (le_refl _) (le_refl _) (by omega) (by omega), hs r j (le_refl _) (by omega) (by omega) h4]
    exact blk_step l hr P Q S h1 h2

omit [LinearOrder K] [IsStrictOrderedRing K] in
theorem sum_one {nb m : Nat} (h : m < nb) (c : K) (x : Nat → K) :
    ∑ j ∈ range nb, (if j = m then c else 0) * x j = c * x m := by
  rw [sum_eq_single m]
  · rw [if_pos rfl]
  · intro j _ hj
    rw [if_neg hj, zero_mul]
  · intro hm
    exact absurd (mem_range.2 h) hm

omit [IsStrictOrderedRing K] in
theorem sum_B0 {nb i : Nat} (h : i + 2 < nb) (x : Nat → K) : ∑ j ∈ range nb, B0 i j * x j = bend x i := by
  simp only [B0, add_mul, sum_add_distrib]
  rw [sum_one (by omega), sum_one (by omega), sum_one (by omega), bend]
  ring

omit [IsStrictOrderedRing K] in
theorem sum_B1 {nb i : Nat} (h1 : 1 ≤ i) (h : i + 1 < nb) (x : Nat → K) :
    ∑ j ∈ range nb, B1 i j * x j = bend x (i - 1) := by
  obtain ⟨k, rfl⟩ : ∃ k, i = k + 1 := ⟨i - 1, by omega⟩
  rw [Nat.add_sub_cancel, ← sum_B0 (nb := nb) (by omega)]
  refine sum_congr rfl fun j _ => ?_
  have : (B1 (k + 1) j : K) = B0 k j := by
    simp only [B0, B1, Nat.add_right_cancel_iff]
  rw [this]

omit [IsStrictOrderedRing K] in
theorem sum_B2 {nb i : Nat} (h1 : 2 ≤ i) (h : i < nb) (x : Nat → K) :
    ∑ j ∈ range nb, B2 i j * x j = bend x (i - 2) := by
  obtain ⟨k, rfl⟩ : ∃ k, i = k + 2 := ⟨i - 2, by omega⟩
  rw [Nat.add_sub_cancel, ← sum_B0 (nb := nb) (by omega)]
  refine sum_congr rfl fun j _ => ?_
  have : (B2 (k + 2) j : K) = B0 k j := by
    simp only [B0, B2, Nat.add_right_cancel_iff, (show ∀ j : Nat, (j + 1 = k + 2) = (j = k + 1) by intro j; simp)]
  rw [this]

/-- The roughness seen from one value. -/
def pull (nb : Nat) (x : Nat → K) (i : Nat) : K :=
  (if i + 2 < nb then bend x i else 0) + (if 1 ≤ i ∧ i + 1 < nb then -2 * bend x (i - 1) else 0)
    + (if 2 ≤ i then bend x (i - 2) else 0)

omit [IsStrictOrderedRing K] in
theorem weights_dot {nb : Nat} (hnb : 4 ≤ nb) (l : K) (x : Nat → K) {i : Nat} (hi : i < nb) :
    ∑ j ∈ range nb, weights nb l i j * x j = x i + l * pull nb x i := by
  have h : ∀ j ∈ range nb, weights nb l i j * x j
      = (if j = i then 1 else 0) * x j
        + l * ((if i + 2 < nb then B0 i j * x j else 0) + (if 1 ≤ i ∧ i + 1 < nb then -2 * (B1 i j * x j) else 0)
          + (if 2 ≤ i then B2 i j * x j else 0)) := by
    intro j hj
    have hj := mem_range.1 hj
    rw [weights, diag_eq, rows_eq hnb l hi hj]
    have : (if 0 ≤ i ∧ i < 0 + nb ∧ i = j then
        l * ((if i + 2 < nb then B0 i j else 0) + (if 1 ≤ i ∧ i + 1 < nb then -2 * B1 i j else 0)
          + (if 2 ≤ i then B2 i j else 0)) + 1
        else l * ((if i + 2 < nb then B0 i j else 0) + (if 1 ≤ i ∧ i + 1 < nb then -2 * B1 i j else 0)
          + (if 2 ≤ i then B2 i j else 0)))
        = (if j = i then 1 else 0) + l * ((if i + 2 < nb then B0 i j else 0) + (if 1 ≤ i ∧ i + 1 < nb then -2 * B1 i j else 0)
          + (if 2 ≤ i then B2 i j else (0 : K))) := by
      by_cases hij : i = j
      · rw [if_pos (by omega), if_pos hij.symm]; ring
      · rw [if_neg (by omega), if_neg (Ne.symm hij)]; ring
    rw [this]
    simp only [add_mul, mul_add, ite_mul, mul_ite, mul_zero, zero_mul]
    ring_nf
  rw [sum_congr rfl h, sum_add_distrib, sum_one hi, one_mul, ← mul_sum, sum_add_distrib, sum_add_distrib, pull]
  congr 2
  congr 1
  · congr 1
    · split
      · rename_i h; exact sum_B0 h x
      · exact sum_const_zero
    · split
      · rename_i h; rw [← mul_sum, sum_B1 h.1 h.2]
      · exact sum_const_zero
  · split
    · rename_i h; exact sum_B2 h hi x
    · exact sum_const_zero

omit [IsStrictOrderedRing K] in
/-- Summation by parts. -/
theorem sum_pull {nb : Nat} (hnb : 2 ≤ nb) (x v : Nat → K) :
    ∑ i ∈ range nb, v i * pull nb x i = ∑ k ∈ range (nb - 2), bend x k * bend v k := by
  obtain ⟨m, rfl⟩ : ∃ m, nb = m + 2 := ⟨nb - 2, by omega⟩
  have hsplit : ∀ i ∈ range (m + 2), v i * pull (m + 2) x i
      = (if i + 2 < m + 2 then v i * bend x i else 0)
        + (if 1 ≤ i ∧ i + 1 < m + 2 then -2 * (v i * bend x (i - 1)) else 0) + (if 2 ≤ i then v i * bend x (i - 2) else 0) := by
    intro i _
    rw [pull]
    simp only [mul_add, mul_ite, mul_zero]
    ring_nf
  rw [sum_congr rfl hsplit, sum_add_distrib, sum_add_distrib]
  have h0 : ∑ i ∈ range (m + 2), (if i + 2 < m + 2 then v i * bend x i else 0) = ∑ k ∈ range m, v k * bend x k := by
    rw [sum_range_succ, sum_range_succ, if_neg (by omega), if_neg (by omega), add_zero, add_zero]
    refine sum_congr rfl fun i hi => ?_
    rw [if_pos (by have := mem_range.1 hi; omega)]
  have h1 : ∑ i ∈ range (m + 2), (if 1 ≤ i ∧ i + 1 < m + 2 then -2 * (v i * bend x (i - 1)) else 0)
      = ∑ k ∈ range m, -2 * (v (k + 1) * bend x k) := by
    rw [sum_range_succ, if_neg (by omega), add_zero, sum_range_succ', if_neg (by omega), add_zero]
    refine sum_congr rfl fun i hi => ?_
    rw [if_pos (by have := mem_range.1 hi; omega), Nat.add_sub_cancel]
  have h2 : ∑ i ∈ range (m + 2), (if 2 ≤ i then v i * bend x (i - 2) else 0) = ∑ k ∈ range m, v (k + 2) * bend x k := by
    rw [sum_range_succ', if_neg (by omega), add_zero, sum_range_succ', if_neg (by omega), add_zero]
    refine sum_congr rfl fun i hi => ?_
    rw [if_pos (by omega), show i + 1 + 1 - 2 = i by omega]
  rw [h0, h1, h2, ← sum_add_distrib, ← sum_add_distrib, Nat.add_sub_cancel]
  refine sum_congr rfl fun k _ => ?_
  rw [bend, bend]
  ring

/-- The matrix of the filter has independent columns. -/
theorem weights_regular {nb : Nat} (hnb : 4 ≤ nb) {l : K} (hl : 0 ≤ l) : ¬ Singular nb (weights nb l) := by
  rintro ⟨v, ⟨i, hi, hv⟩, h0⟩
  have h1 : ∑ i ∈ range nb, v i * (v i + l * pull nb v i) = 0 := by
    apply sum_eq_zero
    intro i hi
    rw [← weights_dot hnb l v (mem_range.1 hi), h0 i (mem_range.1 hi), mul_zero]
  have h2 : ∑ i ∈ range nb, v i * (v i + l * pull nb v i)
      = ∑ i ∈ range nb, v i ^ 2 + l * ∑ k ∈ range (nb - 2), bend v k ^ 2 := by
    have : ∀ i ∈ range nb, v i * (v i + l * pull nb v i) = v i ^ 2 + l * (v i * pull nb v i) := fun i _ => by ring
    rw [sum_congr rfl this, sum_add_distrib, ← mul_sum, sum_pull (by omega)]
    congr 2
    exact sum_congr rfl fun k _ => by ring
  rw [h2] at h1
  have h3 : 0 ≤ l * ∑ k ∈ range (nb - 2), bend v k ^ 2 := mul_nonneg hl (sum_nonneg fun k _ => sq_nonneg _)
  have h4 : v i ^ 2 ≤ ∑ i ∈ range nb, v i ^ 2 :=
    single_le_sum (f := fun i => v i ^ 2) (fun i _ => sq_nonneg _) (mem_range.2 hi)
  have h5 : 0 < v i ^ 2 := by positivity
  linarith

/-- The cost around a solution of the system. -/
theorem cost_add {nb : Nat} (hnb : 4 ≤ nb) {l : K} {y g : Nat → K} (hs : Solves nb (weights nb l) y g) (h : Nat → K) :
    cost nb l y h = cost nb l y g
      + (∑ i ∈ range nb, (h i - g i) ^ 2 + l * ∑ k ∈ range (nb - 2), bend (fun i => h i - g i) k ^ 2) := by
  have hn : ∑ i ∈ range nb, (h i - g i) * (g i - y i)
      + l * ∑ k ∈ range (nb - 2), bend g k * bend (fun i => h i - g i) k = 0 := by
    rw [← sum_pull (by omega) g (fun i => h i - g i), mul_sum, ← sum_add_distrib]
    apply sum_eq_zero
    intro i hi
    have := hs i (mem_range.1 hi)
    rw [weights_dot hnb l g (mem_range.1 hi)] at this
    rw [← this]
    ring
  have h1 : ∑ i ∈ range nb, (y i - h i) ^ 2 = ∑ i ∈ range nb, (y i - g i) ^ 2
      + (2 * ∑ i ∈ range nb, (h i - g i) * (g i - y i) + ∑ i ∈ range nb, (h i - g i) ^ 2) := by
    rw [mul_sum, ← sum_add_distrib, ← sum_add_distrib]
    exact sum_congr rfl fun i _ => by ring
  have h2 : ∑ k ∈ range (nb - 2), bend h k ^ 2 = ∑ k ∈ range (nb - 2), bend g k ^ 2
      + (2 * ∑ k ∈ range (nb - 2), bend g k * bend (fun i => h i - g i) k
        + ∑ k ∈ range (nb - 2), bend (fun i => h i - g i) k ^ 2) := by
    rw [mul_sum, ← sum_add_distrib, ← sum_add_distrib]
    exact sum_congr rfl fun k _ => by simp only [bend]; ring
  rw [cost, cost, h1, h2]
  linear_combination 2 * hn

theorem trend_of_solves {nb : Nat} (hnb : 4 ≤ nb) {l : K} (hl : 0 ≤ l) {y g : Nat → K}
    (hs : Solves nb (weights nb l) y g) : IsTrend nb l y g := by
  intro h
  have hc := cost_add hnb hs h
  have h1 : 0 ≤ ∑ i ∈ range nb, (h i - g i) ^ 2 := sum_nonneg fun k _ => sq_nonneg _
  have h2 : 0 ≤ l * ∑ k ∈ range (nb - 2), bend (fun i => h i - g i) k ^ 2 :=
    mul_nonneg hl (sum_nonneg fun k _ => sq_nonneg _)
  refine ⟨by linarith, fun hle i hi => ?_⟩
  have h4 : (h i - g i) ^ 2 ≤ ∑ i ∈ range nb, (h i - g i) ^ 2 :=
    single_le_sum (f := fun i => (h i - g i) ^ 2) (fun i _ => sq_nonneg _) (mem_range.2 hi)
  have h5 : (h i - g i) ^ 2 = 0 := le_antisymm (by linarith) (sq_nonneg _)
  exact sub_eq_zero.1 (pow_eq_zero_iff (two_ne_zero) |>.1 h5)

/-- `M_solve` on the matrix of the filter. -/
theorem mSolve_weights {nb : Nat} (hnb : 4 ≤ nb) {l : K} (hl : l = 0 ∨ 2 * (1 / 10 ^ 25) ≤ l) (y x : Nat → K) :
    ∃ g, mSolve nb ⟨weights nb l, y⟩ x = some g ∧ Solves nb (weights nb l) y g := by
  have hl0 : 0 ≤ l := by
    have he : (0 : K) < 1 / 10 ^ 25 := by positivity
    rcases hl with h | h <;> linarith
  have hsame : mSolve nb ⟨weights nb l, y⟩ x = solve exact0 nb ⟨weights nb l, y⟩ x := by
    rw [mSolve, solve, solve, if_neg (by omega), if_neg (by omega), if_neg (by omega), if_neg (by omega)]
    obtain ⟨k, hk⟩ : ∃ k, nb - 1 = k + 1 := ⟨nb - 2, by omega⟩
    rw [hk, ut_same hl k 0 ⟨weights nb l, y⟩ 1 0 1 (by omega)
      ⟨le_refl _, le_refl _, le_refl _, by norm_num, by norm_num, Or.inl rfl⟩
      (fun i j _ _ hi hj => weights_eq hnb l hi hj)]
  have h := solve_exact (n := nb) (by omega) ⟨weights nb l, y⟩ x
  rw [hsame]
  revert h
  cases solve exact0 nb ⟨weights nb l, y⟩ x with
  | none => exact fun h => absurd h (weights_regular hnb hl0)
  | some g => exact fun h => ⟨g, rfl, h.1⟩

end Iode.Hodrick
