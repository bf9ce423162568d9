import Mathlib.Algebra.Order.Field.Basic

/-!
# Natural cubic splines

Through the points `(0, y 0), ..., (m, y m)`: one cubic per interval, the same first and second derivatives where two cubics meet,
no curvature at both ends.
-/
namespace Iode.Spline

/-- A cubic, in the distance to the left end of its interval. -/
structure Cubic (K : Type) where
  c0 : K
  c1 : K
  c2 : K
  c3 : K
  deriving DecidableEq

variable {K : Type} [Field K]

/-- Value. -/
def Cubic.at (p : Cubic K) (s : K) : K := p.c0 + p.c1 * s + p.c2 * s ^ 2 + p.c3 * s ^ 3
/-- First derivative. -/
def Cubic.d1 (p : Cubic K) (s : K) : K := p.c1 + 2 * p.c2 * s + 3 * p.c3 * s ^ 2
/-- Second derivative. -/
def Cubic.d2 (p : Cubic K) (s : K) : K := 2 * p.c2 + 6 * p.c3 * s

/-- `p i` is the cubic of the interval from `i` to `i + 1`, for `i < m`. -/
structure Natural (y : Nat → K) (m : Nat) (p : Nat → Cubic K) : Prop where
  left : ∀ i, i < m → (p i).at 0 = y i
  right : ∀ i, i < m → (p i).at 1 = y (i + 1)
  slope : ∀ i, i + 1 < m → (p i).d1 1 = (p (i + 1)).d1 0
  curve : ∀ i, i + 1 < m → (p i).d2 1 = (p (i + 1)).d2 0
  first : 0 < m → (p 0).d2 0 = 0
  last : ∀ i, i + 1 = m → (p i).d2 1 = 0

/-- The series has a number at this position. -/
def Known (x : List (Option K)) (i : Nat) : Prop := ∃ v, x[i]? = some (some v)

/-- `m` is the last period of the first run of numbers of `x`; it is the last period but one when there is no missing value behind. -/
def FirstRun (x : List (Option K)) (m : Nat) : Prop := (∀ i, i ≤ m → Known x i) ∧ m + 1 < x.length ∧ (x[m + 1]? = some none ∨ m + 2 = x.length)

end Iode.Spline
