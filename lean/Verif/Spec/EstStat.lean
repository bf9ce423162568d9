import Mathlib.Algebra.BigOperators.Group.Finset.Basic
import Mathlib.Algebra.Order.Field.Basic

/-!
# Statistics of a series, its fit and its residuals
-/
namespace Iode.Spec.EstStat

open Finset

variable {K : Type} [Field K]

/-- The mean of the first `T` values. -/
def mean (T : Nat) (y : Nat → K) : K := (∑ t ∈ range T, y t) / T

/-- The sum of the squares. -/
def squares (T : Nat) (u : Nat → K) : K := ∑ t ∈ range T, u t ^ 2

/-- The sum of the squares of the differences with the mean. -/
def total (T : Nat) (y : Nat → K) : K := ∑ t ∈ range T, (y t - mean T y) ^ 2

/-- The sum of the squares of the changes from a period to the next one. -/
def changes (T : Nat) (u : Nat → K) : K := ∑ t ∈ range (T - 1), (u (t + 1) - u t) ^ 2

/-- `sqrt` is a square root. -/
def IsSqrt [LinearOrder K] (sqrt : K → K) : Prop := ∀ v, 0 ≤ v → 0 ≤ sqrt v ∧ sqrt v ^ 2 = v

end Iode.Spec.EstStat
