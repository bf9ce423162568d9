import Verif.Model.Linear
import Verif.Spec.Linear
import Mathlib.Algebra.BigOperators.Ring.Finset
import Mathlib.Algebra.BigOperators.Intervals
import Mathlib.Tactic.Ring
import Mathlib.Tactic.FieldSimp
import Mathlib.Tactic.LinearCombination

/-!
# Lemmas on the Gauss elimination
-/
namespace Iode.Lin

open Spec.Linear Finset

variable {K : Type} [Field K] [LinearOrder K]

/-- `x` solves the system whose right hand side is multiplied by `c`. -/
def SolvesC (n : Nat) (s : Sys K) (c : K) (x : Nat → K) : Prop := Solves n s.a (fun i => c * s.b i) x

/-- The exact test. -/
def exact0 (x : K) : Bool := decide (x = 0)

theorem exact0_iff (x : K) : exact0 x = true ↔ x = 0 := by simp [exact0]

theorem exact0_false {x : K} : exact0 x = false ↔ x ≠ 0 := by simp [exact0]

theorem solvesC_addRow {n : Nat} (s : Sys K) (m : K) {r row : Nat} (hr : r < n) (hne : r ≠ row) (c : K) (x : Nat → K) :
    SolvesC n (s.addRow m r row) c x ↔ SolvesC n s c x := by
  have hsum : ∑ j ∈ range n, (s.a row j + m * s.a r j) * x j
      = ∑ j ∈ range n, s.a row j * x j + m * ∑ j ∈ range n, s.a r j * x j := by
    rw [mul_sum, ← sum_add_distrib]
    exact sum_congr rfl fun j _ => by ring
  constructor
  · intro h i hi
    have hR : ∑ j ∈ range n, s.a r j * x j = c * s.b r := by
      have := h r hr
      simpa only [Sys.addRow, if_neg hne] using this
    by_cases hc : i = row
    · subst hc
      have := h i hi
      simp only [Sys.addRow, if_true] at this
      rw [hsum, hR] at this
      linear_combination this
    · have := h i hi
      simpa only [Sys.addRow, if_neg hc] using this
  · intro h i hi
    by_cases hc : i = row
    · subst hc
      simp only [Sys.addRow, if_true]
      rw [hsum, h i hi, h r hr]
      ring
    · simp only [Sys.addRow, if_neg hc]
      exact h i hi

theorem solvesC_swap {n : Nat} (s : Sys K) {k r : Nat} (hr : r < n) (hk : k < n) (c : K) (x : Nat → K) :
    SolvesC n (s.swap k r) c x ↔ SolvesC n s c x := by
  constructor
  · intro h i hi
    by_cases h1 : i = k
    · subst h1
      have := h r hr
      simpa only [Sys.swap, if_true] using this
    by_cases h2 : i = r
    · subst h2
      have := h k hk
      by_cases h3 : k = i
      · exact absurd h3.symm h1
      · simpa only [Sys.swap, if_true, if_neg h3] using this
    · have := h i hi
      simpa only [Sys.swap, if_neg h1, if_neg h2] using this
  · intro h i hi
    by_cases h2 : i = r
    · subst h2
      simp only [Sys.swap, if_true]
      exact h k hk
    by_cases h1 : i = k
    · subst h1
      simp only [Sys.swap, if_neg h2, if_true]
      exact h r hr
    · simp only [Sys.swap, if_neg h1, if_neg h2]
      exact h i hi

theorem solvesC_clear {n : Nat} (z : K → Bool) {r : Nat} (hr : r < n) (c : K) (x : Nat → K) :
    ∀ (f row : Nat) (s : Sys K), r < row → (SolvesC n (clear z r f row s) c x ↔ SolvesC n s c x)
  | 0, _, _, _ => Iff.rfl
  | f + 1, row, s, h => by
    rw [clear, solvesC_clear z hr c x f (row + 1) _ (by omega)]
    split
    · exact solvesC_addRow s _ hr (by omega) c x
    · exact Iff.rfl

/-- What clearing a column does to the matrix, when the test is exact for that column. -/
theorem clear_a (z : K → Bool) {r : Nat} :
    ∀ (f row : Nat) (s : Sys K), r < row → (∀ i, row ≤ i → i < row + f → (z (s.a i r) = true ↔ s.a i r = 0)) →
      ∀ i j, (clear z r f row s).a i j
        = if row ≤ i ∧ i < row + f then s.a i j - s.a i r / s.a r r * s.a r j else s.a i j
  | 0, row, s, _, _, i, j => by
    rw [clear, if_neg (by omega)]
  | f + 1, row, s, h, hz, i, j => by
    rw [clear]
    generalize hs' : (if (!z (s.a row r)) = true then s.addRow (-s.a row r / s.a r r) r row else s) = s'
    have hoth : ∀ i' j', i' ≠ row → s'.a i' j' = s.a i' j' := by
      intro i' j' hi'
      rw [← hs']
      split
      · simp only [Sys.addRow, if_neg hi']
      · rfl
    have hrow : ∀ j', s'.a row j' = s.a row j' - s.a row r / s.a r r * s.a r j' := by
      intro j'
      rw [← hs']
      have := hz row (le_refl _) (by omega)
      split
      · simp only [Sys.addRow, if_true]
        ring
      · rename_i hc
        have h0 : s.a row r = 0 := this.1 (by simpa using hc)
        rw [h0]
        ring
    rw [clear_a z f (row + 1) s' (by omega)
      (fun i hi hi' => by rw [hoth i r (by omega)]; exact hz i (by omega) (by omega)) i j]
    by_cases hi : i = row
    · subst hi
      rw [if_neg (by omega), if_pos (by omega)]
      exact hrow j
    · rw [hoth i j hi, hoth i r hi, hoth r r (by omega), hoth r j (by omega)]
      by_cases hc : row + 1 ≤ i ∧ i < row + 1 + f
      · rw [if_pos hc, if_pos (by omega)]
      · rw [if_neg hc, if_neg (by omega)]

/-- Two tests that agree on the column clear it in the same way. -/
theorem clear_congr (z z' : K → Bool) {r : Nat} :
    ∀ (f row : Nat) (s : Sys K), r < row → (∀ i, row ≤ i → i < row + f → z (s.a i r) = z' (s.a i r)) →
      clear z r f row s = clear z' r f row s
  | 0, _, _, _, _ => rfl
  | f + 1, row, s, h, hz => by
    rw [clear, clear, hz row (le_refl _) (by omega)]
    apply clear_congr z z' f (row + 1) _ (by omega)
    intro i hi hi'
    have : (if (!z' (s.a row r)) = true then s.addRow (-s.a row r / s.a r r) r row else s).a i r = s.a i r := by
      split
      · simp only [Sys.addRow]
        rw [if_neg (by omega)]
      · rfl
    rw [this]
    exact hz i (by omega) (by omega)

/-- The pivot search: a row with an element that is not zero, or none. -/
theorem pivot_some (z : K → Bool) {r : Nat} :
    ∀ (f k : Nat) (s s' : Sys K), pivot z r f k s = some s' →
      ∃ m, k ≤ m ∧ m < k + f ∧ z (s.a m r) = false ∧ s' = s.swap m r
  | 0, _, _, _, h => by simp [pivot] at h
  | f + 1, k, s, s', h => by
    rw [pivot] at h
    split at h
    · rename_i hc
      exact ⟨k, le_refl _, by omega, by simpa using hc, (Option.some.inj h).symm⟩
    · obtain ⟨m, h1, h2, h3⟩ := pivot_some z f (k + 1) s s' h
      exact ⟨m, by omega, by omega, h3⟩

theorem pivot_none (z : K → Bool) {r : Nat} :
    ∀ (f k : Nat) (s : Sys K), pivot z r f k s = none → ∀ i, k ≤ i → i < k + f → z (s.a i r) = true
  | 0, _, _, _, i, h1, h2 => by omega
  | f + 1, k, s, h, i, h1, h2 => by
    rw [pivot] at h
    split at h
    · cases h
    · rename_i hc
      by_cases hk : i = k
      · subst hk
        simpa using hc
      · exact pivot_none z f (k + 1) s h i (by omega) (by omega)

/-- The first `r` columns have been cleared below the diagonal, where nothing is zero. -/
structure Upper (n r : Nat) (s : Sys K) : Prop where
  zero : ∀ i j, i < n → j < r → j < i → s.a i j = 0
  diag : ∀ i, i < r → s.a i i ≠ 0

/-- Completing a vector given from `r` on so that the first `r` rows are sent to zero. -/
theorem complete {n : Nat} (a : Nat → Nat → K) :
    ∀ (r : Nat) (v : Nat → K), r ≤ n → (∀ i j, i < r → j < i → a i j = 0) → (∀ i, i < r → a i i ≠ 0) →
      ∃ w : Nat → K, (∀ i, r ≤ i → w i = v i) ∧ ∀ i, i < r → ∑ j ∈ range n, a i j * w j = 0
  | 0, v, _, _, _ => ⟨v, fun _ _ => rfl, fun i hi => by omega⟩
  | r + 1, v, hr, hz, hd => by
    let S := ∑ j ∈ range n, if j = r then 0 else if j < r then 0 else a r j * v j
    let v' := fun i => if i = r then -S / a r r else v i
    obtain ⟨w, h1, h2⟩ := complete (n := n) a r v' (by omega) (fun i j hi hj => hz i j (by omega) hj)
      (fun i hi => hd i (by omega))
    refine ⟨w, fun i hi => ?_, fun i hi => ?_⟩
    · rw [h1 i (by omega)]
      exact if_neg (by omega)
    · by_cases hir : i = r
      · subst hir
        have hsplit : ∀ j ∈ range n, a i j * w j
            = (if j = i then a i i * w i else 0) + (if j = i then 0 else if j < i then 0 else a i j * v j) := by
          intro j _
          by_cases hj : j = i
          · subst hj
            simp
          · by_cases hj' : j < i
            · simp [hj, hj', hz i j (by omega) hj']
            · have : w j = v j := by
                rw [h1 j (by omega)]
                exact if_neg hj
              simp [hj, hj', this]
        rw [sum_congr rfl hsplit, sum_add_distrib, Finset.sum_ite_eq' (range n) i]
        rw [if_pos (mem_range.2 (by omega))]
        have hw : w i = -S / a i i := by
          rw [h1 i (le_refl _)]
          exact if_pos rfl
        rw [hw]
        have := hd i (by omega)
        show a i i * (-S / a i i) + S = 0
        field_simp
        ring
      · exact h2 i (by omega)

/-- A matrix whose first `r` columns have been cleared, and whose column `r` has nothing from row `r` on, is singular. -/
theorem singular_of_column {n r : Nat} {s : Sys K} (hr : r < n) (hu : Upper n r s)
    (hc : ∀ i, r ≤ i → i < n → s.a i r = 0) : Singular n s.a := by
  obtain ⟨w, h1, h2⟩ := complete (n := n) s.a r (fun i => if i = r then 1 else 0) (by omega)
    (fun i j hi hj => hu.zero i j (by omega) (by omega) hj) hu.diag
  refine ⟨w, ⟨r, hr, ?_⟩, fun i hi => ?_⟩
  · rw [h1 r (le_refl _), if_pos rfl]
    exact one_ne_zero
  · by_cases hir : i < r
    · exact h2 i hir
    · apply sum_eq_zero
      intro j hj
      have hj := mem_range.1 hj
      by_cases hjr : j < r
      · rw [hu.zero i j hi hjr (by omega), zero_mul]
      · rw [h1 j (by omega)]
        by_cases hjr' : j = r
        · subst hjr'
          rw [hc i (by omega) hi, zero_mul]
        · rw [if_neg hjr', mul_zero]

/-- Same systems, whatever multiple of the right hand side is taken. -/
def Same (n : Nat) (s s' : Sys K) : Prop := ∀ c x, SolvesC n s c x ↔ SolvesC n s' c x

theorem Same.trans {n : Nat} {s s' s'' : Sys K} (h : Same n s s') (h' : Same n s' s'') : Same n s s'' :=
  fun c x => (h c x).trans (h' c x)

theorem Same.singular {n : Nat} {s s' : Sys K} (h : Same n s s') (hs : Singular n s'.a) : Singular n s.a := by
  obtain ⟨v, hv, h0⟩ := hs
  refine ⟨v, hv, ?_⟩
  have : SolvesC n s' 0 v := fun i hi => (h0 i hi).trans (zero_mul _).symm
  have := (h 0 v).2 this
  exact fun i hi => (this i hi).trans (zero_mul _)

/-- The elimination with the exact test. -/
theorem ut_exact {n : Nat} :
    ∀ (k r : Nat) (s : Sys K), r + k + 1 = n → Upper n r s →
      match ut exact0 n k r s with
      | none => Singular n s.a
      | some s' => Same n s s' ∧ Upper n n s'
  | 0, r, s, hk, hu => by
    rw [ut]
    have hr : n - 1 = r := by omega
    rw [hr]
    by_cases h : exact0 (s.a r r) = true
    · rw [if_pos h]
      refine singular_of_column (by omega) hu fun i h1 h2 => ?_
      have : i = r := by omega
      subst this
      exact (exact0_iff _).1 h
    · rw [if_neg h]
      refine ⟨fun _ _ => Iff.rfl, ⟨fun i j hi hj hji => hu.zero i j hi (by omega) hji, fun i hi => ?_⟩⟩
      by_cases hir : i = r
      · subst hir
        exact exact0_false.1 (by simpa using h)
      · exact hu.diag i (by omega)
  | k + 1, r, s, hk, hu => by
    rw [ut]
    -- the row of the pivot
    have hpiv : match (if exact0 (s.a r r) = true then pivot exact0 r (n - r) r s else some s) with
        | none => Singular n s.a
        | some s' => Same n s s' ∧ Upper n r s' ∧ s'.a r r ≠ 0 := by
      by_cases h : exact0 (s.a r r) = true
      · rw [if_pos h]
        cases hp : pivot exact0 r (n - r) r s with
        | none =>
          exact singular_of_column (by omega) hu fun i h1 h2 =>
            (exact0_iff _).1 (pivot_none exact0 _ _ s hp i h1 (by omega))
        | some s' =>
          obtain ⟨m, hm, hm', hz, rfl⟩ := pivot_some exact0 _ _ s s' hp
          refine ⟨fun c x => (solvesC_swap s (by omega) (by omega) c x).symm, ⟨fun i j hi hj hji => ?_, fun i hi => ?_⟩, ?_⟩
          · simp only [Sys.swap]
            split
            · exact hu.zero m j (by omega) hj (by omega)
            · split
              · exact hu.zero r j (by omega) hj hj
              · exact hu.zero i j hi hj hji
          · simp only [Sys.swap]
            rw [if_neg (by omega), if_neg (by omega)]
            exact hu.diag i hi
          · simp only [Sys.swap, if_true]
            exact exact0_false.1 hz
      · rw [if_neg h]
        exact ⟨fun _ _ => Iff.rfl, hu, exact0_false.1 (by simpa using h)⟩
    revert hpiv
    cases (if exact0 (s.a r r) = true then pivot exact0 r (n - r) r s else some s) with
    | none => exact id
    | some s1 =>
      rintro ⟨hsame, hu1, hd⟩
      simp only
      have hca := clear_a exact0 (r := r) (n - (r + 1)) (r + 1) s1 (by omega) (fun i _ _ => exact0_iff _)
      have hsame2 : Same n s1 (clear exact0 r (n - (r + 1)) (r + 1) s1) :=
        fun c x => (solvesC_clear exact0 (by omega) c x _ _ s1 (by omega)).symm
      have hu2 : Upper n (r + 1) (clear exact0 r (n - (r + 1)) (r + 1) s1) := by
        refine ⟨fun i j hi hj hji => ?_, fun i hi => ?_⟩
        · rw [hca i j]
          by_cases hc : r + 1 ≤ i ∧ i < r + 1 + (n - (r + 1))
          · rw [if_pos hc]
            by_cases hjr : j = r
            · subst hjr
              field_simp
              ring
            · rw [hu1.zero i j hi (by omega) hji, hu1.zero r j (by omega) (by omega) (by omega)]
              ring
          · rw [if_neg hc]
            exact hu1.zero i j hi (by omega) hji
        · rw [hca i i, if_neg (by omega)]
          by_cases hir : i = r
          · subst hir; exact hd
          · exact hu1.diag i (by omega)
      have ih := ut_exact k (r + 1) (clear exact0 r (n - (r + 1)) (r + 1) s1) (by omega) hu2
      revert ih
      cases ut exact0 n k (r + 1) (clear exact0 r (n - (r + 1)) (r + 1) s1) with
      | none => exact fun h => (hsame.trans hsame2).singular h
      | some s' => exact fun h => ⟨(hsame.trans hsame2).trans h.1, h.2⟩

theorem sumLoop_eq (f : Nat → K) : ∀ (c i : Nat) (s : K), sumLoop f c i s = s + ∑ j ∈ range c, f (i + j)
  | 0, i, s => by simp [sumLoop]
  | c + 1, i, s => by
    rw [sumLoop, sumLoop_eq f c, sum_range_succ']
    have : ∀ j ∈ range c, f (i + 1 + j) = f (i + (j + 1)) := fun j _ => by congr 1; omega
    rw [sum_congr rfl this, Nat.add_zero]
    ring

theorem sumLoop_range (f : Nat → K) {n t : Nat} (h : t ≤ n) (hz : ∀ j, j < t → f j = 0) :
    sumLoop f (n - t) t 0 = ∑ j ∈ range n, f j := by
  rw [sumLoop_eq, zero_add]
  have hn : n = t + (n - t) := by omega
  conv_rhs => rw [hn, sum_range_add]
  rw [sum_eq_zero (s := range t) (fun j hj => hz j (mem_range.1 hj)), zero_add]

/-- Back substitution: the values from `t` on satisfy their equations, and are kept. -/
theorem bwSub_spec {n : Nat} {s : Sys K} (hu : Upper n n s) :
    ∀ (t : Nat) (x : Nat → K), t ≤ n →
      (∀ i, t ≤ i → i < n → ∑ j ∈ range n, s.a i j * x j = s.b i) →
      (∀ i, t ≤ i → bwSub n s t x i = x i) ∧ Solves n s.a s.b (bwSub n s t x)
  | 0, x, _, h => ⟨fun _ _ => rfl, fun i hi => h i (Nat.zero_le _) hi⟩
  | t + 1, x, ht, h => by
    rw [bwSub]
    generalize hx' : (fun i => if i = t then
        (s.b t - sumLoop (fun j => s.a t j * x j) (n - (t + 1)) (t + 1) 0) / s.a t t else x i) = x'
    have hkeep : ∀ i, i ≠ t → x' i = x i := fun i hi => by rw [← hx']; exact if_neg hi
    have hval : x' t = (s.b t - sumLoop (fun j => s.a t j * x j) (n - (t + 1)) (t + 1) 0) / s.a t t := by
      rw [← hx']; exact if_pos rfl
    have hstep : ∀ i, t ≤ i → i < n → ∑ j ∈ range n, s.a i j * x' j = s.b i := by
      intro i hi hin
      by_cases hit : i = t
      · subst hit
        have h1 : sumLoop (fun j => s.a i j * x j) (n - (i + 1)) (i + 1) 0
            = sumLoop (fun j => if j = i then 0 else s.a i j * x' j) (n - (i + 1)) (i + 1) 0 := by
          rw [sumLoop_eq, sumLoop_eq]
          congr 1
          refine sum_congr rfl fun j _ => ?_
          rw [if_neg (by omega), hkeep _ (by omega)]
        rw [h1, sumLoop_range _ (by omega) (fun j hj => ?_)] at hval
        · have hsplit : ∀ j ∈ range n, s.a i j * x' j
              = (if j = i then s.a i i * x' i else 0) + (if j = i then 0 else s.a i j * x' j) := by
            intro j _
            by_cases hj : j = i
            · subst hj; simp
            · simp [hj]
          rw [sum_congr rfl hsplit, sum_add_distrib, Finset.sum_ite_eq' (range n) i,
            if_pos (mem_range.2 hin), hval]
          have := hu.diag i hin
          field_simp
          ring
        · by_cases hji : j = i
          · exact if_pos hji
          · rw [if_neg hji, hu.zero i j hin (by omega) (by omega), zero_mul]
      · rw [← h i (by omega) hin]
        refine sum_congr rfl fun j hj => ?_
        by_cases hjt : j = t
        · subst hjt
          rw [hu.zero i j hin (by omega) (by omega), zero_mul, zero_mul]
        · rw [hkeep j hjt]
    obtain ⟨h1, h2⟩ := bwSub_spec hu t x' (by omega) hstep
    exact ⟨fun i hi => by rw [h1 i (by omega), hkeep i (by omega)], h2⟩

/-- An upper triangular matrix without zeros on the diagonal sends only zero to zero. -/
theorem upper_regular {n : Nat} {s : Sys K} (hu : Upper n n s) : ¬ Singular n s.a := by
  rintro ⟨v, ⟨i, hi, hvi⟩, h0⟩
  have key : ∀ d i, i + d + 1 = n → ∀ j, i ≤ j → j < n → v j = 0 := by
    intro d
    induction d with
    | zero =>
      intro i hd j h1 h2
      have hji : j = i := by omega
      subst hji
      have hrow := h0 j h2
      rw [sum_eq_single j] at hrow
      · exact (mul_eq_zero.1 hrow).resolve_left (hu.diag j h2)
      · intro k hk hkj
        have := mem_range.1 hk
        rw [hu.zero j k h2 (by omega) (by omega), zero_mul]
      · intro h; exact absurd (mem_range.2 h2) h
    | succ d ih =>
      intro i hd j h1 h2
      by_cases hji : j = i
      · subst hji
        have hrow := h0 j h2
        rw [sum_eq_single j] at hrow
        · exact (mul_eq_zero.1 hrow).resolve_left (hu.diag j h2)
        · intro k hk hkj
          have := mem_range.1 hk
          by_cases hlt : k < j
          · rw [hu.zero j k h2 (by omega) hlt, zero_mul]
          · rw [ih (j + 1) (by omega) k (by omega) this, mul_zero]
        · intro h; exact absurd (mem_range.2 h2) h
      · exact ih (i + 1) (by omega) j (by omega) h2
  exact hvi (key (n - 1 - i) i (by omega) i (le_refl _) hi)

/-- The whole of `M_solve` with the exact test. -/
theorem solve_exact {n : Nat} (hn : 0 < n) (s : Sys K) (x : Nat → K) :
    match solve exact0 n s x with
    | none => Singular n s.a
    | some g => Solves n s.a s.b g ∧ ¬ Singular n s.a := by
  rw [solve, if_neg (by omega)]
  by_cases h1 : n = 1
  · rw [if_pos h1]
    subst h1
    by_cases hz : exact0 (s.a 0 0) = true
    · rw [if_pos hz]
      refine ⟨fun _ => 1, ⟨0, by omega, one_ne_zero⟩, fun i hi => ?_⟩
      have : i = 0 := by omega
      subst this
      simp [(exact0_iff _).1 hz]
    · rw [if_neg hz]
      have hz' : s.a 0 0 ≠ 0 := exact0_false.1 (by simpa using hz)
      constructor
      · intro i hi
        have : i = 0 := by omega
        subst this
        simp
        field_simp
      · rintro ⟨v, ⟨i, hi, hv⟩, h0⟩
        have : i = 0 := by omega
        subst this
        have := h0 0 hi
        simp at this
        rcases this with h | h
        · exact hz' h
        · exact hv h
  · rw [if_neg h1]
    have h := ut_exact (n := n) (n - 1) 0 s (by omega) ⟨fun i j _ hj _ => by omega, fun i hi => by omega⟩
    revert h
    cases ut exact0 n (n - 1) 0 s with
    | none => exact id
    | some s' =>
      rintro ⟨hsame, hu⟩
      have hs := (bwSub_spec hu n x (le_refl _) (fun i h1 h2 => by omega)).2
      refine ⟨?_, fun hsing => ?_⟩
      · have : SolvesC n s' 1 (bwSub n s' n x) := fun i hi => (hs i hi).trans (one_mul _).symm
        have := (hsame 1 _).2 this
        exact fun i hi => (this i hi).trans (one_mul _)
      · have hsame' : Same n s' s := fun c x => (hsame c x).symm
        exact upper_regular hu (hsame'.singular hsing)

/-- Without a dependency between the columns a system has one solution only. -/
theorem solves_unique {n : Nat} {a : Nat → Nat → K} {b x y : Nat → K} (h : ¬ Singular n a) (hx : Solves n a b x)
    (hy : Solves n a b y) : ∀ i, i < n → x i = y i := by
  intro i hi
  by_contra hne
  refine h ⟨fun j => x j - y j, ⟨i, hi, sub_ne_zero.2 hne⟩, fun k hk => ?_⟩
  have : ∀ j ∈ range n, a k j * (x j - y j) = a k j * x j - a k j * y j := fun j _ => by ring
  rw [sum_congr rfl this, sum_sub_distrib, hx k hk, hy k hk, sub_self]

end Iode.Lin
