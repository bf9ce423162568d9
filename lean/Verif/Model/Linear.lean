import Verif.Model.Res
import Mathlib.Algebra.Order.Field.Basic
import Mathlib.Algebra.Order.Group.Abs

/-!
# Model of the solution of linear systems (scr4/s_masol.c, scr4/s_maro.c) and of the inverse (scr4/s_mainv.c)

Numbers are exact (an ordered field `K`).  The dimensions of the three matrices are those required by `M_solve` (s_masol.c 45-71) and
the allocations succeed.  The test `ZERO` is a parameter `z` of every function, so that the code (`z = isZero`) can be compared with an
elimination that tests for zero exactly; `mSolve` is the code.
-/
namespace Iode.Lin

variable {K : Type} [Field K] [LinearOrder K]

/-- `ZERO(x)`: `fabs(x) < 1e-25`, scr4/s_mat.h 12. -/
def isZero (x : K) : Bool := decide (|x| < 1 / 10 ^ 25)

/-- The matrix and the right hand side, both modified in place. -/
structure Sys (K : Type) where
  a : Nat → Nat → K
  b : Nat → K

/-- The exchange of two rows and of their right hand sides: `M_ero_sw`, scr4/s_maro.c 9-26 and s_masol.c 192-205. -/
def Sys.swap (s : Sys K) (n r : Nat) : Sys K where
  a i j := if i = r then s.a n j else if i = n then s.a r j else s.a i j
  b i := if i = r then s.b n else if i = n then s.b r else s.b i

/-- `M_gel_pivot`, s_masol.c 179-211, `f` rows left from row `n`; `none` is the return value 2. -/
def pivot (z : K → Bool) (r : Nat) : Nat → Nat → Sys K → Option (Sys K)
  | 0, _, _ => none
  | f + 1, n, s => if !z (s.a n r) then some (s.swap n r) else pivot z r f (n + 1) s

/-- `row += mult * r_row` on the matrix (`M_ero_ma`, scr4/s_maro.c 38-48) and on the right hand side, s_masol.c 145-152. -/
def Sys.addRow (s : Sys K) (m : K) (r row : Nat) : Sys K where
  a i j := if i = row then s.a row j + m * s.a r j else s.a i j
  b i := if i = row then s.b row + m * s.b r else s.b i

/-- The loop over the rows below the pivot, s_masol.c 141-153, `f` rows left from `row`. -/
def clear (z : K → Bool) (r : Nat) : Nat → Nat → Sys K → Sys K
  | 0, _, s => s
  | f + 1, row, s =>
    clear z r f (row + 1) (if !z (s.a row r) then s.addRow (-s.a row r / s.a r r) r row else s)

/-- `M_gel_ut`, s_masol.c 125-166: `k` columns left from column `r`; `none` is a return value other than 0. -/
def ut (z : K → Bool) (n : Nat) : Nat → Nat → Sys K → Option (Sys K)
  | 0, _, s => if z (s.a (n - 1) (n - 1)) then none else some s
  | k + 1, r, s =>
    match (if z (s.a r r) then pivot z r (n - r) r s else some s) with
    | none => none
    | some s' => ut z n k (r + 1) (clear z r (n - (r + 1)) (r + 1) s')

/-- `for(row = k; ...; row++) sum = sum + f(row)`, `c` rounds left. -/
def sumLoop (f : Nat → K) : Nat → Nat → K → K
  | 0, _, s => s
  | c + 1, i, s => sumLoop f c (i + 1) (s + f i)

/-- `M_bw_sub`, s_masol.c 222-237: the terms below `t` are still to be computed. -/
def bwSub (n : Nat) (s : Sys K) : Nat → (Nat → K) → Nat → K
  | 0, x => x
  | t + 1, x =>
    bwSub n s t fun i =>
      if i = t then (s.b t - sumLoop (fun j => s.a t j * x j) (n - (t + 1)) (t + 1) 0) / s.a t t else x i

/-- `M_solve` with its return value, s_masol.c 39-89 (`M_gel_init`, 101-110): `none` when a null pointer is returned, `m3` being then
    left as it is; `x` is the content of `m3` at the call. -/
def solve (z : K → Bool) (n : Nat) (s : Sys K) (x : Nat → K) : Option (Nat → K) :=
  if n < 1 then none
  else if n = 1 then
    if z (s.a 0 0) then none else some fun i => if i = 0 then s.b 0 / s.a 0 0 else x i
  else
    match ut z n (n - 1) 0 s with
    | none => none
    | some s' => some (bwSub n s' n x)

/-- `M_solve`. -/
def mSolve (n : Nat) (s : Sys K) (x : Nat → K) : Option (Nat → K) := solve isZero n s x

/-! ### The inverse by sweeping -/

/-- `MATE2(i, i) += c` for every row, s_mainv.c 78-79 (`c = 1`) and 98-99 (`c = -1`); `f` rows left from row `i`. -/
def shift (c : K) : Nat → Nat → (Nat → Nat → K) → Nat → Nat → K
  | 0, _, a => a
  | f + 1, i, a => shift c f (i + 1) fun i' j' => if i' = i ∧ j' = i then a i i + c else a i' j'

/-- The row of the pivot is divided by it, s_mainv.c 85-86. -/
def divRow (n m : Nat) (p : K) (a : Nat → Nat → K) : Nat → Nat → K :=
  fun i j => if i = m ∧ j < n then a i j / p else a i j

/-- The other rows, s_mainv.c 88-95, `f` rows left from row `i`. -/
def sweepRows (n m : Nat) : Nat → Nat → (Nat → Nat → K) → Nat → Nat → K
  | 0, _, a => a
  | f + 1, i, a =>
    if i = m then sweepRows n m f (i + 1) a
    else sweepRows n m f (i + 1) fun i' j' => if i' = i ∧ j' < n then a i j' - a i m * a m j' else a i' j'

/-- The loop over the pivots, s_mainv.c 81-96, `k` left from `m`; `none` is the jump to `err`. -/
def sweep (n : Nat) : Nat → Nat → (Nat → Nat → K) → Option (Nat → Nat → K)
  | 0, _, a => some a
  | k + 1, m, a =>
    if a m m - 1 = 0 then none
    else sweep n k (m + 1) (sweepRows n m n 0 (divRow n m (a m m - 1) a))

/-- `M_inv_1`, s_mainv.c 46-107, on a square matrix of dimension `n`: `none` when a null pointer is returned. -/
def inv1 (n : Nat) (a : Nat → Nat → K) : Option (Nat → Nat → K) :=
  (sweep n n 0 (shift 1 n 0 a)).map (shift (-1) n 0)

end Iode.Lin
