import Mathlib.Algebra.Order.Field.Basic
import Mathlib.Algebra.Order.Floor.Ring
import Mathlib.Algebra.BigOperators.Group.List.Basic
import Mathlib.Algebra.BigOperators.Group.List.Lemmas
import Mathlib.Tactic.Linarith
import Mathlib.Tactic.Ring
import Mathlib.Tactic.FieldSimp
import Verif.Spec.Lec

/-!
# What the manual says about the built-in functions

doc/source/lec_language.rst 300-700, written for exact numbers: an ordered field `K`, missing values are
`none`.
-/
namespace Iode.Lec

variable {K : Type} [Field K] [LinearOrder K] [IsStrictOrderedRing K] [FloorRing K]

/-- The primitive operations on numbers are exact (no rounding, no overflow). -/
structure Exact (A : Arith (Option K)) : Prop where
  na : A.na = none
  isNum : ∀ x, A.isNum x = x.isSome
  ofInt : ∀ n : Int, A.ofInt n = some (n : K)
  half : A.half = some (1 / 2)
  add : ∀ x y : K, A.add (some x) (some y) = some (x + y)
  sub : ∀ x y : K, A.sub (some x) (some y) = some (x - y)
  mul : ∀ x y : K, A.mul (some x) (some y) = some (x * y)
  div : ∀ x y : K, y ≠ 0 → A.div (some x) (some y) = some (x / y)
  neg : ∀ x : K, A.neg (some x) = some (-x)
  lt : ∀ x y : K, A.lt (some x) (some y) = decide (x < y)
  eq : ∀ x y : K, A.eq (some x) (some y) = decide (x = y)
  tiny : A.tiny (some 0) = true
  floor : ∀ x : K, A.prim .floor (some x) = some (⌊x⌋ : K)
  fabs : ∀ x : K, A.prim .fabs (some x) = some |x|
  pow10 : ∀ n : Nat, A.pow10 (some (n : K)) = some (some ((10 : K) ^ n))
  toInt : ∀ (x : K), A.toInt (some x) = some (if x < 0 then ⌈x⌉ else ⌊x⌋)

/-- `n` is the integer nearest to `x`, the upper one of two. -/
def Nearest (x : K) (n : Int) : Prop := (n : K) - 1 / 2 ≤ x ∧ x < (n : K) + 1 / 2

/-- Value of a function of numbers according to the manual.  `y` is the result for the arguments `xs`, written
from left to right. -/
def Manual : Fn → List K → K → Prop
  | .uminus, [x], y => y = -x
  | .uplus, [x], y => y = x
  | .max, xs, y => y ∈ xs ∧ ∀ x ∈ xs, x ≤ y
  | .min, xs, y => y ∈ xs ∧ ∀ x ∈ xs, y ≤ x
  | .lsum, xs, y => y = xs.sum
  | .lprod, xs, y => y = xs.prod
  | .lmean, xs, y => y = xs.sum / xs.length
  | .lcount, xs, y => y = xs.length
  | .abs, [x], y => y = |x|
  | .sign, [x], y => (0 ≤ x → y = 1) ∧ (x < 0 → y = -1)
  | .int, [x], y => ∃ n : Int, y = n ∧ Nearest x n
  | .floor, [x], y => ∃ n : Int, y = n ∧ (n : K) ≤ x ∧ x < n + 1
  | .ceil, [x], y => ∃ n : Int, y = n + 1 ∧ (n : K) ≤ x ∧ x < n + 1
  | .round, [x], y => ∃ n : Int, y = n ∧ Nearest x n
  | .round, [x, d], y => ∀ k : Nat, d = k → ∃ n : Int, y = n / 10 ^ k ∧ Nearest (x * 10 ^ k) n
  | .fnisan, [_], y => y = 1
  | .if, [c, a, b], y => (c ≠ 0 → y = a) ∧ (c = 0 → y = b)
  | .div0, [a, b], y => (b ≠ 0 → y = a / b) ∧ (b = 0 → y = 0)
  | _, _, _ => True

/-- A truth value as a number. -/
def truthVal (b : Prop) [Decidable b] : K := if b then 1 else 0

/-- Value of an operator on numbers according to the manual; `none` is the missing value. -/
def ManualOp : Op → K → K → Option K → Prop
  | .or, x, y, r => r = some (truthVal (x ≠ 0 ∨ y ≠ 0))
  | .and, x, y, r => r = some (truthVal (x ≠ 0 ∧ y ≠ 0))
  | .ge, x, y, r => r = some (truthVal (y ≤ x))
  | .gt, x, y, r => r = some (truthVal (y < x))
  | .le, x, y, r => r = some (truthVal (x ≤ y))
  | .lt, x, y, r => r = some (truthVal (x < y))
  | .eq, x, y, r => r = some (truthVal (x = y))
  | .ne, x, y, r => r = some (truthVal (x ≠ y))
  | .plus, x, y, r => r = some (x + y)
  | .minus, x, y, r => r = some (x - y)
  | .times, x, y, r => r = some (x * y)
  | .divide, x, y, r => (y ≠ 0 → r = some (x / y)) ∧ (y = 0 → r = none)
  | .exp, _, _, _ => True

/-- Functions whose result the manual gives and the code computes. -/
def Fn.asWritten : Fn → Bool
  | .uminus | .uplus | .max | .min | .lsum | .lprod | .lmean | .abs | .sign | .int | .floor | .ceil | .round
  | .fnisan => true
  | _ => false

/-- Value of a time function over the series `b`: `l`, `d`, `r`, `grt` with the lag `k`. -/
def ManualLag : TFn → (Int → K) → Int → Int → K → Prop
  | .lag, b, t, k, y => y = b (t - k)
  | .diff, b, t, k, y => y = b t - b (t - k)
  | .rapp, b, t, k, y => b (t - k) ≠ 0 → y = b t / b (t - k)
  | .grt, b, t, k, y => b (t - k) ≠ 0 → y = 100 * (b t / b (t - k) - 1)
  | .mavg, b, t, k, y => y = ((List.range (max 1 k).toNat).map fun i : Nat => b (t - i)).sum / (max 1 k : Int)
  | _, _, _, _, _ => True

/-- The values of a series from `lo` to `hi`. -/
def window (b : Int → K) (lo hi : Int) : List K := (List.range (hi - lo + 1).toNat).map fun i : Nat => b (lo + i)

/-- Value of a time function over the periods `lo` to `hi`. -/
def ManualRange : TFn → (Int → K) → Int → Int → K → Prop
  | .sum, b, lo, hi, y => y = (window b lo hi).sum
  | .prod, b, lo, hi, y => y = (window b lo hi).prod
  | .mean, b, lo, hi, y => y = (window b lo hi).sum / (hi - lo + 1 : Int)
  | .vmax, b, lo, hi, y => (∃ j, lo ≤ j ∧ j ≤ hi ∧ y = b j) ∧ ∀ j, lo ≤ j → j ≤ hi → b j ≤ y
  | .vmin, b, lo, hi, y => (∃ j, lo ≤ j ∧ j ≤ hi ∧ y = b j) ∧ ∀ j, lo ≤ j → j ≤ hi → y ≤ b j
  | .lastobs, b, _, hi, y => y = b hi
  | _, _, _, _, _ => True

end Iode.Lec
