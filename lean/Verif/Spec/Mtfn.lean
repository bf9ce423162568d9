import Mathlib.Algebra.BigOperators.Group.Finset.Basic
import Mathlib.Algebra.Order.Field.Basic
import Mathlib.Order.Interval.Finset.Basic
import Mathlib.Data.Int.Interval

/-!
# What the manual says about the functions of several series (doc/source/lec_language.rst 694-860)
-/
namespace Iode.Mtfn

variable {K : Type} [Field K] [LinearOrder K]

/-- The series `x` has the values `u` from `a` to `b`. -/
def Known (x : Int → Option K) (u : Int → K) (a b : Int) : Prop := ∀ j, a ≤ j → j ≤ b → x j = some (u j)

/-- The mean from `a` to `b`. -/
def Mean (u : Int → K) (a b : Int) : K := (∑ j ∈ Finset.Icc a b, u j) / ((b - a + 1 : Int) : K)

/-- The covariance from `a` to `b`. -/
def Covar (u v : Int → K) (a b : Int) : K := (∑ j ∈ Finset.Icc a b, (u j - Mean u a b) * (v j - Mean v a b)) / ((b - a + 1 : Int) : K)

/-- `p` is the nearest position before `t` where `x` has a value that is good, and `v` this value. -/
def IsBefore (x : Int → Option K) (Good : K → Prop) (t p : Int) (v : K) : Prop :=
  0 ≤ p ∧ p < t ∧ x p = some v ∧ Good v ∧ ∀ j, p < j → j < t → ∀ w, x j = some w → ¬ Good w

/-- The same after `t`, in a sample of `n` periods. -/
def IsAfter (x : Int → Option K) (Good : K → Prop) (n t q : Int) (v : K) : Prop :=
  t < q ∧ q < n ∧ x q = some v ∧ Good v ∧ ∀ j, t < j → j < q → ∀ w, x j = some w → ¬ Good w

def NoneBefore (x : Int → Option K) (Good : K → Prop) (t : Int) : Prop := ∀ j, 0 ≤ j → j < t → ∀ w, x j = some w → ¬ Good w

def NoneAfter (x : Int → Option K) (Good : K → Prop) (n t : Int) : Prop := ∀ j, t < j → j < n → ∀ w, x j = some w → ¬ Good w

/-- Any value. -/
def Any (_ : K) : Prop := True

/-- A value that is not zero (up to the precision of the code). -/
def NonZero (v : K) : Prop := 1 / 10 ^ 15 < |v|

/-- The line through (`p`, `v`) and (`q`, `w`), at `t`. -/
def Line (p : Int) (v : K) (q : Int) (w : K) (t : Int) : K := v + (w - v) * (((t - p : Int) : K) / ((q - p : Int) : K))

end Iode.Mtfn
