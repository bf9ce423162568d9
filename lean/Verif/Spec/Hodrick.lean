import Mathlib.Algebra.BigOperators.Group.Finset.Basic
import Mathlib.Algebra.Order.Field.Basic

/-!
# What the Hodrick-Prescott trend of a series is
-/
namespace Iode.Spec.Hodrick

variable {K : Type} [Field K] [LinearOrder K]

/-- The change of the slope between three consecutive values. -/
def bend (g : Nat → K) (i : Nat) : K := g i - 2 * g (i + 1) + g (i + 2)

/-- The distance to the series plus `l` times the roughness. -/
def cost (n : Nat) (l : K) (y g : Nat → K) : K :=
  ∑ i ∈ Finset.range n, (y i - g i) ^ 2 + l * ∑ i ∈ Finset.range (n - 2), bend g i ^ 2

/-- `g` is the trend of the `n` values `y`: nothing costs less, and whatever costs as much has the same values. -/
def IsTrend (n : Nat) (l : K) (y g : Nat → K) : Prop :=
  ∀ h : Nat → K, cost n l y g ≤ cost n l y h ∧ (cost n l y h ≤ cost n l y g → ∀ i, i < n → h i = g i)

/-- The first values known of a series of `nb` periods: `d` of them, from position `b` on, the values being `y`.  What comes later is
    not looked at. -/
structure FirstRun (nb : Nat) (f : Nat → Option K) (b d : Nat) (y : Nat → K) : Prop where
  inside : b + d ≤ nb
  before : ∀ i, i < b → f i = none
  known : ∀ k, k < d → f (b + k) = some (y k)
  after : b + d < nb → f (b + d) = none

end Iode.Spec.Hodrick
