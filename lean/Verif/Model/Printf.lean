import Verif.Model.Period
import Mathlib.Algebra.Order.Field.Rat
import Mathlib.Algebra.Order.Floor.Defs
import Mathlib.Data.Rat.Floor

/-!
# Numbers in decimal and in binary

The C library functions `printf("%.<P>lg")` and `atof` on finite numbers, exactly: a number is a rational number, a `double` is
one with 53 significant binary digits.  Used by the ascii formats (api/ascii).

Simplifications: `-0` is `0`; rounding is to nearest, ties to even (IEEE 754 default, as glibc and the Microsoft library do).
-/
namespace Iode
namespace Printf


/-- Largest `k` with `b ^ k ≤ n`; `n` steps are enough. -/
def natLog (b : Nat) : Nat → Nat → Nat
  | 0, _ => 0
  | f + 1, n => if n < b then 0 else natLog b f (n / b) + 1

/-- Largest `k` with `b ^ k ≤ q`, for positive `q`. -/
def ilog (b : Nat) (q : Rat) : Int :=
  if 1 ≤ q then (natLog b q.floor.toNat q.floor.toNat : Int)
  else -((natLog b ((q⁻¹).ceil.toNat - 1) ((q⁻¹).ceil.toNat - 1) : Int) + 1)

/-- The whole number next to a non-negative number, the even one of two. -/
def roundEven (x : Rat) : Nat :=
  let f := x.floor.toNat
  if x - f < 1 / 2 then f
  else if 1 / 2 < x - f then f + 1
  else if f % 2 = 0 then f else f + 1

/-- The unit of the last of `P` significant digits of `q` in base `b`, as an exponent. -/
def unit (b P : Nat) (q : Rat) : Int := ilog b |q| - ((P : Int) - 1)

/-- The first `P` significant digits of `q` in base `b`, rounded. -/
def mant (b P : Nat) (q : Rat) : Nat := roundEven (|q| / (b : Rat) ^ unit b P q)

/-- `q` rounded to `P` significant digits in base `b`. -/
def sig (b P : Nat) (q : Rat) : Rat :=
  if q = 0 then 0
  else if q < 0 then -((mant b P q : Rat) * (b : Rat) ^ unit b P q)
  else (mant b P q : Rat) * (b : Rat) ^ unit b P q

/-- The number of 53 binary digits next to a number. -/
def toDouble (q : Rat) : Rat := sig 2 53 q

/-- A value of type `double`; the sign of zero is left out. -/
inductive Dbl where
  | num (q : Rat)
  | inf
  | ninf
  | nan
  deriving DecidableEq, Repr

/-- The unit of the last binary digit of the `double` next to `q`, as an exponent (subnormal numbers have fewer digits). -/
def unitD (q : Rat) : Int := max (ilog 2 |q| - 52) (-1074)

/-- A number rounded to the last binary digit of a `double`. -/
def roundD (q : Rat) : Rat :=
  if q < 0 then -((roundEven (|q| / (2 : Rat) ^ unitD q) : Rat) * (2 : Rat) ^ unitD q)
  else (roundEven (|q| / (2 : Rat) ^ unitD q) : Rat) * (2 : Rat) ^ unitD q

/-- The `double` next to a number (`atof`, IEEE 754 round to nearest with overflow). -/
def ieee (q : Rat) : Dbl :=
  if q = 0 then .num 0
  else if (2 : Rat) ^ 1024 ≤ roundD q then .inf
  else if roundD q ≤ -(2 : Rat) ^ 1024 then .ninf
  else .num (roundD q)

/-- The unit of the last binary digit of the `float` next to `q`, as an exponent. -/
def unitF (q : Rat) : Int := max (ilog 2 |q| - 23) (-149)

/-- A number rounded to the last binary digit of a `float`. -/
def roundF (q : Rat) : Rat :=
  if q < 0 then -((roundEven (|q| / (2 : Rat) ^ unitF q) : Rat) * (2 : Rat) ^ unitF q)
  else (roundEven (|q| / (2 : Rat) ^ unitF q) : Rat) * (2 : Rat) ^ unitF q

/-- `(float) value` (IEEE 754; in C++ undefined when the value is too large). -/
def toFloat : Dbl → Dbl
  | .num q =>
    if (2 : Rat) ^ 128 ≤ roundF q then .inf
    else if roundF q ≤ -(2 : Rat) ^ 128 then .ninf
    else .num (roundF q)
  | v => v

/-- `minus * value` with `minus` 1 or -1. -/
def signed (neg : Bool) : Dbl → Dbl
  | .num q => .num (if neg then -q else q)
  | .inf => if neg then .ninf else .inf
  | .ninf => if neg then .inf else .ninf
  | .nan => .nan

/-- Without the zeros at the end. -/
def stripZeros (t : List Char) : List Char := (t.reverse.dropWhile fun c => decide (c = '0')).reverse

/-- A point and decimals, if there are any. -/
def point (f : List Char) : List Char := if f = [] then [] else '.' :: f

/-- Exponents are written with two digits at least. -/
def expText (n : Nat) : List Char := if n < 10 then '0' :: natToChars n else natToChars n

/-- Digits `ds` (without zeros at the end) with the first one at the exponent `x`, written by `%.<P>lg`: with an exponent if `x`
    is below -4 or not below `P`. -/
def layout (P : Nat) (ds : List Char) (x : Int) : List Char :=
  if x < -4 ∨ (P : Int) ≤ x then
    ds.take 1 ++ (point (ds.drop 1) ++ 'e' :: (if x < 0 then '-' else '+') :: expText x.natAbs)
  else if 0 ≤ x then
    (ds ++ List.replicate (x.toNat + 1 - ds.length) '0').take (x.toNat + 1) ++ point (ds.drop (x.toNat + 1))
  else '0' :: '.' :: (List.replicate (-x - 1).toNat '0' ++ ds)

/-- `printf("%.<P>lg", q)` (ISO C, 7.21.6.1). -/
def fmtG (P : Nat) (q : Rat) : List Char :=
  if q = 0 then ['0']
  else
    let d := natToChars (mant 10 P q)
    let body := layout P (stripZeros d) ((d.length : Int) - 1 + unit 10 P q)
    if q < 0 then '-' :: body else body

end Printf
end Iode
