import Verif.Lemmas.Sweep
import Mathlib.Tactic.Linarith
import Mathlib.Tactic.Positivity

/-!
# C54: linear systems are solved and matrices are inverted
-/
namespace Iode.Lin.C54

open Iode.Lin Iode.Spec.Linear Finset

variable {K : Type} [Field K] [LinearOrder K]

/-- **C54** The elimination, with a test of zero that would be exact, decides every system: either the columns are dependent and nothing
    is returned, or they are not and what is returned satisfies every equation, and nothing else does. -/
theorem C54_exact {n : Nat} (hn : 0 < n) (s : Sys K) (x : Nat → K) :
    (solve (fun v => decide (v = 0)) n s x = none ↔ Singular n s.a) ∧
    ∀ g, solve (fun v => decide (v = 0)) n s x = some g →
      Solves n s.a s.b g ∧ ∀ h, Solves n s.a s.b h → ∀ i, i < n → h i = g i := by
  have h := solve_exact hn s x
  change match solve (fun v => decide (v = 0)) n s x with
    | none => Singular n s.a
    | some g => Solves n s.a s.b g ∧ ¬ Singular n s.a at h
  revert h
  cases solve (fun v => decide (v = 0)) n s x with
  | none => exact fun h => ⟨⟨fun _ => h, fun _ => rfl⟩, fun g hg => by cases hg⟩
  | some g =>
    rintro ⟨h1, h2⟩
    refine ⟨⟨fun h => (by cases h), fun h => absurd h h2⟩, fun g' hg => ?_⟩
    obtain rfl := Option.some.inj hg
    exact ⟨h1, fun h hh => solves_unique h2 hh h1⟩

/-- Every number that the elimination compares with zero is zero, or not smaller than the threshold; `k` columns left from `r`. -/
def sharp (n : Nat) : Nat → Nat → Sys K → Bool
  | 0, _, s => decide (s.a (n - 1) (n - 1) = 0 ∨ 1 / 10 ^ 25 ≤ |s.a (n - 1) (n - 1)|)
  | k + 1, r, s =>
    (List.range (n - r)).all (fun i => decide (s.a (r + i) r = 0 ∨ 1 / 10 ^ 25 ≤ |s.a (r + i) r|)) &&
    match (if isZero (s.a r r) then pivot isZero r (n - r) r s else some s) with
    | none => true
    | some s' => sharp n k (r + 1) (clear isZero r (n - (r + 1)) (r + 1) s')

theorem pivot_congr (z z' : K → Bool) {r : Nat} : ∀ (f k : Nat) (s : Sys K),
    (∀ i, k ≤ i → i < k + f → z (s.a i r) = z' (s.a i r)) → pivot z r f k s = pivot z' r f k s
  | 0, _, _, _ => rfl
  | f + 1, k, s, h => by
    rw [pivot, pivot, h k (le_refl _) (by omega), pivot_congr z z' f (k + 1) s (fun i h1 h2 => h i (by omega) (by omega))]

theorem test_eq [IsStrictOrderedRing K] {x : K} (h : x = 0 ∨ 1 / 10 ^ 25 ≤ |x|) : isZero x = exact0 x := by
  rcases h with h | h
  · subst h
    simp [isZero, exact0]
  · have h0 : x ≠ 0 := by
      rintro rfl
      rw [abs_zero] at h
      have : (0 : K) < 1 / 10 ^ 25 := by positivity
      linarith
    rw [isZero, exact0, decide_eq_false h0, decide_eq_false (not_lt.2 h)]

theorem ut_sharp [IsStrictOrderedRing K] {n : Nat} : ∀ (k r : Nat) (s : Sys K), r + k + 1 = n → sharp n k r s = true →
    ut isZero n k r s = ut exact0 n k r s
  | 0, r, s, _, h => by
    rw [sharp, decide_eq_true_eq] at h
    rw [ut, ut, test_eq h]
  | k + 1, r, s, hk, h => by
    rw [sharp, Bool.and_eq_true, List.all_eq_true] at h
    obtain ⟨h1, h2⟩ := h
    have hcol : ∀ i, r ≤ i → i < r + (n - r) → isZero (s.a i r) = exact0 (s.a i r) := by
      intro i hi hi'
      have := h1 (i - r) (List.mem_range.2 (by omega))
      rw [decide_eq_true_eq, show r + (i - r) = i by omega] at this
      exact test_eq this
    have hpiv : (if isZero (s.a r r) = true then pivot isZero r (n - r) r s else some s)
        = (if exact0 (s.a r r) = true then pivot exact0 r (n - r) r s else some s) := by
      rw [hcol r (le_refl _) (by omega), pivot_congr isZero exact0 _ _ s hcol]
    have hstep : ∀ s', (if exact0 (s.a r r) = true then pivot exact0 r (n - r) r s else some s) = some s' →
        ∀ i, r + 1 ≤ i → i < r + 1 + (n - (r + 1)) → isZero (s'.a i r) = exact0 (s'.a i r) := by
      intro s' hs' i hi hi'
      split at hs'
      · obtain ⟨m, hm, hm', _, rfl⟩ := pivot_some exact0 _ _ s s' hs'
        simp only [Sys.swap]
        rw [if_neg (by omega)]
        split
        · exact hcol r (le_refl _) (by omega)
        · exact hcol i (by omega) (by omega)
      · obtain rfl := Option.some.inj hs'
        exact hcol i (by omega) (by omega)
    rw [ut, ut]
    rw [hpiv] at h2 ⊢
    revert h2 hstep
    cases (if exact0 (s.a r r) = true then pivot exact0 r (n - r) r s else some s) with
    | none => intro _ _; rfl
    | some s' =>
      intro h2 hstep
      have hc := clear_congr isZero exact0 (r := r) (n - (r + 1)) (r + 1) s' (by omega) (hstep s' rfl)
      simp only [hc] at h2 ⊢
      exact ut_sharp (n := n) k (r + 1) _ (by omega) h2

/-- **C54** `M_solve` (partial: none of the numbers that the elimination compares with zero may lie between zero and the threshold of
    `ZERO`).  Then it fails exactly when the columns are dependent, and otherwise returns the only solution. -/
theorem C54_solve_partial [IsStrictOrderedRing K] {n : Nat} (hn : 0 < n) (s : Sys K) (x : Nat → K)
    (hs : sharp n (n - 1) 0 s = true) :
    (mSolve n s x = none ↔ Singular n s.a) ∧
    ∀ g, mSolve n s x = some g → Solves n s.a s.b g ∧ ∀ h, Solves n s.a s.b h → ∀ i, i < n → h i = g i := by
  have hz : mSolve n s x = solve exact0 n s x := by
    rw [mSolve, solve, solve, ut_sharp (n - 1) 0 s (by omega) hs]
    by_cases h1 : n = 1
    · subst h1
      have : isZero (s.a 0 0) = exact0 (s.a 0 0) := by
        rw [sharp, decide_eq_true_eq] at hs
        exact test_eq hs
      rw [this]
    · simp only [if_neg h1]
  rw [hz]
  exact C54_exact hn s x

/-- Unit vectors. -/
def unit (k i : Nat) : K := if i = k then 1 else 0

omit [LinearOrder K] in
theorem sum_unit {n k : Nat} (hk : k < n) (f : Nat → K) : ∑ j ∈ range n, f j * unit k j = f k := by
  rw [sum_eq_single k]
  · rw [unit, if_pos rfl, mul_one]
  · intro j _ hj
    rw [unit, if_neg hj, mul_zero]
  · intro h
    exact absurd (mem_range.2 hk) h

/-- **C54** What `M_inv_1` returns is the inverse, on both sides. -/
theorem C54_inverse {n : Nat} {a b : Nat → Nat → K} (h : inv1 n a = some b) : IsInverse n a b := by
  constructor
  · intro i k hi hk
    have h1 : Solves n b (fun j => b j k) (unit k) := fun j _ => sum_unit hk (fun j' => b j j')
    exact (inv1_iff h (fun j => b j k) (unit k)).2 h1 i hi
  · intro i k hi hk
    have h1 : Solves n a (fun j => a j k) (unit k) := fun j _ => sum_unit hk (fun j' => a j j')
    exact (inv1_iff h (unit k) (fun j => a j k)).1 h1 i hi

/-- **C54** `M_inv_1` solves systems: the solution is the product of what it returns with the right hand side. -/
theorem C54_inverse_solves {n : Nat} {a b : Nat → Nat → K} (h : inv1 n a = some b) (x y : Nat → K) :
    Solves n a y x ↔ ∀ i, i < n → x i = ∑ j ∈ range n, b i j * y j :=
  (inv1_iff h x y).trans ⟨fun hs i hi => (hs i hi).symm, fun hs i hi => (hs i hi).symm⟩

/-- **C54** `M_inv_1` gives up exactly when one of the blocks in the upper left corner is singular. -/
theorem C54_inverse_none {n : Nat} (a : Nat → Nat → K) :
    inv1 n a = none ↔ ∃ r, r ≤ n ∧ Singular r a := inv1_none_iff a

/-- **C54** A positive definite matrix (a matrix of covariances, a matrix `X'X`) always gets its inverse. -/
theorem C54_positive {n : Nat} (a : Nat → Nat → K)
    (hp : ∀ v : Nat → K, (∃ i, i < n ∧ v i ≠ 0) → 0 < ∑ i ∈ range n, v i * ∑ j ∈ range n, a i j * v j) :
    ∃ b, inv1 n a = some b ∧ IsInverse n a b := by
  cases h : inv1 n a with
  | some b => exact ⟨b, rfl, C54_inverse h⟩
  | none =>
    exfalso
    obtain ⟨r, hr, v, ⟨i, hi, hv⟩, h0⟩ := (inv1_none_iff a).1 h
    have hpos := hp (fun j => if j < r then v j else 0) ⟨i, by omega, by simpa only [if_pos hi] using hv⟩
    have hzero : ∑ i ∈ range n, (if i < r then v i else 0) * ∑ j ∈ range n, a i j * (if j < r then v j else 0) = 0 := by
      apply sum_eq_zero
      intro i _
      by_cases hir : i < r
      · rw [sum_short (n := n) hr (fun j => a i j * if j < r then v j else 0)
          (fun j hj => by rw [if_neg (by omega), mul_zero])]
        have : ∑ j ∈ range r, a i j * (if j < r then v j else 0) = 0 :=
          (sum_congr rfl fun j hj => by rw [if_pos (mem_range.1 hj)]).trans (h0 i hir)
        rw [this, mul_zero]
      · rw [if_neg hir, zero_mul]
    rw [hzero] at hpos
    exact lt_irrefl _ hpos

/-! ### Examples -/

/-- A matrix whose first pivot is zero. -/
def exA : Nat → Nat → Rat := fun i j => if i = 0 ∧ j = 0 then 0 else (i : Rat) + 2 * j + (if i = j then 3 else 0)
def exB : Nat → Rat := fun i => i + 1

example : sharp 3 2 0 ⟨exA, exB⟩ = true := by decide +kernel
example : (mSolve 3 ⟨exA, exB⟩ fun _ => 0).map (fun g => [g 0, g 1, g 2]) = some [2 / 5, 1 / 10, 1 / 5] := by decide +kernel
/-- Dependent columns. -/
example : sharp 2 1 0 ⟨fun i j => ((i + 1) * (j + 1) : Rat), exB⟩ = true ∧
    (mSolve 2 ⟨fun i j => ((i + 1) * (j + 1) : Rat), exB⟩ fun _ => 0).isNone = true := by decide +kernel
example : (inv1 2 (fun i j => if i = j then 3 else (1 : Rat))).map (fun b => [b 0 0, b 0 1, b 1 0, b 1 1])
    = some [3 / 8, -1 / 8, -1 / 8, 3 / 8] := by decide +kernel
/-- A positive definite matrix. -/
example (v : Nat → Rat) (h : ∃ i, i < 2 ∧ v i ≠ 0) :
    0 < ∑ i ∈ range 2, v i * ∑ j ∈ range 2, (if i = j then 3 else (1 : Rat)) * v j := by
  obtain ⟨i, hi, hv⟩ := h
  simp only [sum_range_succ, sum_range_zero]
  simp
  have h2 : 0 < v i ^ 2 := by positivity
  rcases (by omega : i = 0 ∨ i = 1) with rfl | rfl <;> nlinarith [sq_nonneg (v 0 + v 1), sq_nonneg (v 0), sq_nonneg (v 1)]

/-! ### Where the code does not solve or invert -/

/-- **C54** A system of small numbers is declared to have no solution, although its columns are independent. -/
theorem C54_small_counterexample : ∃ s : Sys Rat, ¬ Singular 2 s.a ∧ mSolve 2 s (fun _ => 0) = none := by
  refine ⟨⟨fun i j => if i = j then 1 / 10 ^ 26 else 0, fun _ => 1⟩, ?_, ?_⟩
  · rintro ⟨v, ⟨i, hi, hv⟩, h0⟩
    have := h0 i hi
    simp only [sum_range_succ, sum_range_zero] at this
    rcases (by omega : i = 0 ∨ i = 1) with rfl | rfl
    · simp at this
      exact hv this
    · simp at this
      exact hv this
  · have h : (mSolve 2 ⟨fun i j => if i = j then (1 / 10 ^ 26 : Rat) else 0, fun _ => 1⟩ fun _ => 0).isNone = true := by
      decide +kernel
    exact Option.isNone_iff_eq_none.1 h

/-- **C54** A number below the threshold is left in its place and forgotten: what is returned is not a solution, although it can be as far
    from it as the right hand side is large. -/
theorem C54_skipped_counterexample : ∃ (s : Sys Rat) (g : Nat → Rat), mSolve 2 s (fun _ => 0) = some g ∧
    ∑ j ∈ range 2, s.a 1 j * g j = s.b 1 + 10 ^ 4 := by
  let s : Sys Rat := ⟨fun i j => if i = 1 ∧ j = 0 then 1 / 10 ^ 26 else if i = j then 1 else 0, fun i => if i = 0 then 10 ^ 30 else 0⟩
  have h : (mSolve 2 s fun _ => 0).isSome = true := by decide +kernel
  obtain ⟨g, hg⟩ := Option.isSome_iff_exists.1 h
  refine ⟨s, g, hg, ?_⟩
  have hv : ∑ j ∈ range 2, s.a 1 j * ((mSolve 2 s fun _ => 0).getD fun _ => 0) j = s.b 1 + 10 ^ 4 := by decide +kernel
  rwa [hg] at hv

/-- **C54** `M_inv_1` does not exchange rows: this matrix is its own inverse and is declared not to have any. -/
theorem C54_pivot_counterexample : ∃ a : Nat → Nat → Rat, IsInverse 2 a a ∧ inv1 2 a = none := by
  refine ⟨fun i j => if i = j then 0 else 1, ?_, ?_⟩
  · constructor <;>
    · intro i k hi hk
      rcases (by omega : i = 0 ∨ i = 1) with rfl | rfl <;> rcases (by omega : k = 0 ∨ k = 1) with rfl | rfl <;> decide +kernel
  · have h : (inv1 2 fun i j => if i = j then (0 : Rat) else 1).isNone = true := by decide +kernel
    exact Option.isNone_iff_eq_none.1 h

end Iode.Lin.C54
