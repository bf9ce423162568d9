import Verif.Model.Convert
import Mathlib.Algebra.Order.Field.Basic

/-!
# Seasonal adjustment: `$WsSeasonAdj`

api/report/undoc/b_season.cpp. Exact arithmetic in an ordered field `K`, with `sqrt` as the parameter `root`; dividing by zero gives zero
where the code goes on with an infinity. A vector is a function of the position; a value is `none` for `IODE_NAN`. The columns of
`DS_vec` (the same month of all years) are computed one after the other in the code; they do not touch one another, here each is a
function of the year. `n` is `nbper`, `N` is `nbj`.
-/
namespace Iode.Season

variable {K : Type} [Field K]

/-- `for(m = 0; m < n; m++) d += g(m)`, from zero. -/
def tot : Nat → (Nat → K) → K
  | 0, _ => 0
  | n + 1, g => tot n g + g n

/-! ## The steps of `DS_vec` -/

/-- `ai[f]`, b_season.cpp 204-206. -/
def trend (n : Nat) (v : Nat → K) (f : Nat) : K :=
  tot (n - 1) (fun m => v (f - (n / 2 - 1) + m) / (n : K)) + 1 / ((n : K) * 2) * (v (f - n / 2) + v (f + n / 2))

/-- `bi[f]`, b_season.cpp 203-209: not computed for the first and last half year. -/
def ratio (n N : Nat) (v : Nat → K) (f : Nat) : K :=
  if n / 2 ≤ f ∧ f < n * N - n / 2 then 100 * v f / trend n v f else 0

/-- `ma` for the years `lo, ..., lo + cnt - 1` of a column: two more at both ends, b_season.cpp 214-226, 300-303, 336-338, 383-385. -/
def ext2 (lo cnt : Nat) (c : Nat → K) (i : Nat) : K :=
  if i < 2 then 1 / 2 * (c lo + c (lo + 1))
  else if i < cnt + 2 then c (lo + (i - 2))
  else 1 / 2 * (c (lo + cnt - 2) + c (lo + cnt - 1))

/-- `ma7`: three more, b_season.cpp 393-395. -/
def ext3 (N : Nat) (c : Nat → K) (i : Nat) : K :=
  if i < 3 then 1 / 2 * (c 0 + c 1)
  else if i < N + 3 then c (i - 3)
  else 1 / 2 * (c (N - 2) + c (N - 1))

/-- The moving average of five years, b_season.cpp 229-232, 341-344. -/
def avg5 (lo cnt : Nat) (c : Nat → K) (j : Nat) : K := tot 5 fun f => 1 / 5 * ext2 lo cnt c (j - lo + f)

/-- The standard deviation of a column, b_season.cpp 234-247, 346-353. -/
def dev (root : K → K) (lo cnt : Nat) (c : Nat → K) : K :=
  root (tot cnt (fun j => (c (lo + j) - avg5 lo cnt c (lo + j)) * (c (lo + j) - avg5 lo cnt c (lo + j))) * (1 / ((cnt : K) - 1)))

/-- The mean that replaces a year that is too far, b_season.cpp 254-263, 272-281, 359-367. -/
def around (N : Nat) (c : Nat → K) (j : Nat) : K :=
  if j = 0 then 1 / 3 * (c 0 + c 1 + c 2)
  else if j = N - 1 then 1 / 3 * (c (j - 2) + c (j - 1) + c j)
  else 1 / 3 * (c (j - 1) + c j + c (j + 1))

variable [LinearOrder K]

/-- The loop that replaces them, b_season.cpp 249-284, 355-369: `k` rounds from the year `j`; what was replaced is used for the next. -/
def clip (N : Nat) (m5 : Nat → K) (s : K) : Nat → Nat → (Nat → K) → Nat → K
  | 0, _, c => c
  | k + 1, j, c => clip N m5 s k (j + 1) (if |c j - m5 j| > 2 * s then Function.update c j (around N c j) else c)

/-- A column after that loop. -/
def clean (root : K → K) (N lo cnt : Nat) (c : Nat → K) : Nat → K := clip N (avg5 lo cnt c) (dev root lo cnt c) cnt lo c

/-- The column `m` of a vector. -/
def col (n : Nat) (b : Nat → K) (m : Nat) : Nat → K := fun j => b (n * j + m)

/-- First cleaning, b_season.cpp 211-285: the years for which the column was computed. -/
def clean1 (root : K → K) (n N : Nat) (b : Nat → K) (f : Nat) : K :=
  clean root N (if f % n < n / 2 then 1 else 0) (N - 1) (col n b (f % n)) (f / n)

/-- The first and last half years are copied from the next and the previous year, b_season.cpp 287-288. -/
def ends (n N : Nat) (b : Nat → K) (f : Nat) : K :=
  if f < n / 2 then b (f + n) else if n * N - n / 2 ≤ f then b (f - n) else b f

/-- The factors of a year get the mean 100, b_season.cpp 290-295, 372-377. -/
def norm (n : Nat) (b : Nat → K) (f : Nat) : K := b f + ((n : K) * 100 - tot n fun m => b (n * (f / n) + m)) / (n : K)

/-- `w5`, b_season.cpp 198. -/
def w5 (i : Nat) : K := ([1, 2, 3, 2, 1] : List K).getD i 0
/-- `w7`, b_season.cpp 199. -/
def w7 (i : Nat) : K := ([1, 2, 3, 3, 3, 2, 1] : List K).getD i 0
/-- `w15`, b_season.cpp 200. -/
def w15 (i : Nat) : K := ([-3, -6, -5, 3, 21, 46, 67, 74, 67, 46, 21, 3, -5, -6, -3] : List K).getD i 0

/-- The weighted average of five years, b_season.cpp 305-309, 386-390. -/
def smooth5 (n N : Nat) (b : Nat → K) (f : Nat) : K := tot 5 fun i => w5 i / 9 * ext2 0 N (col n b (f % n)) (f / n + i)
/-- The weighted average of seven years, b_season.cpp 397-401. -/
def smooth7 (n N : Nat) (b : Nat → K) (f : Nat) : K := tot 7 fun i => w7 i / 15 * ext3 N (col n b (f % n)) (f / n + i)

/-- `ci` with seven more at both ends, b_season.cpp 313-317, 412-418. -/
def ext7 (nb : Nat) (c : Nat → K) (i : Nat) : K :=
  if i < 7 then 1 / 4 * (c 0 + c 1 + c 2 + c 3)
  else if i < nb + 7 then c (i - 7)
  else 1 / 4 * (c (nb - 1) + c (nb - 2) + c (nb - 3) + c (nb - 4))

/-- The average of Spencer, b_season.cpp 320-322, 420-422. -/
def spencer (nb : Nat) (c : Nat → K) (f : Nat) : K := tot 15 fun i => w15 i / 320 * ext7 nb c (f + i)

/-- The first factors, b_season.cpp 202-310. -/
def factors1 (root : K → K) (n N : Nat) (v : Nat → K) : Nat → K :=
  smooth5 n N (norm n (ends n N (clean1 root n N (ratio n N v))))

/-- A series without its factors, b_season.cpp 313, 412, and the irregular component, 324, 424. -/
def comp (v b : Nat → K) : Nat → K := fun f => 100 * v f / b f
def irreg (nb : Nat) (c : Nat → K) (f : Nat) : K := 100 * c f / spencer nb c f

/-- `di1`, b_season.cpp 328-329. -/
def ampl (nb : Nat) (i1 : Nat → K) : K := tot (nb - 1) fun f => |i1 (f + 1) - i1 f| / ((nb : K) - 1)

/-- The factors from a vector of ratios, b_season.cpp 334-402. -/
def factors2 (root : K → K) (n N : Nat) (di1 : K) (b : Nat → K) : Nat → K :=
  let b := norm n fun f => clean root N 0 N (col n b (f % n)) (f / n)
  if di1 ≤ 2 then smooth5 n N b else smooth7 n N b

/-- What `DS_vec` leaves: the adjusted series, `c1`, `i1` and `season`. -/
structure Adjusted (K : Type) where
  vec : Nat → K
  c : Nat → K
  i : Nat → K
  season : Nat → K

/-- `DS_vec`, b_season.cpp 185-437. With less than three years it reads outside of `bi` (215, 225). -/
def dsVec (root : K → K) (n N : Nat) (shift : K) (v : Nat → K) : Res (Adjusted K) :=
  if N < 3 then .ub
  else
    let nb := n * N
    let c := comp v (factors1 root n N v)
    let b := factors2 root n N (ampl nb (irreg nb c)) fun f => 100 * v f / spencer nb c f
    let a := comp v b
    .ok ⟨fun f => a f - shift, fun f => spencer nb a f - shift, irreg nb a,
      fun m => 1 / 2 * (3 * b (n * (N - 1) + m) - b (n * (N - 2) + m))⟩

/-! ## `DS_test` -/

/-- The first position of a number, b_season.cpp 145, and the length of the run, 149. -/
def skip : List (Option K) → Nat
  | none :: l => skip l + 1
  | _ => 0
def runLen : List (Option K) → Nat
  | some _ :: l => runLen l + 1
  | _ => 0
/-- The smallest value of the run, at most zero, b_season.cpp 148-150. -/
def low : List (Option K) → K
  | some v :: l => min v (low l)
  | _ => 0

/-- The values of the run with `shift` added, b_season.cpp 155. -/
def raise (d : K) : List (Option K) → List (Option K)
  | some v :: l => some (v + d) :: raise d l
  | l => l

/-- The number at a position. -/
def val (x : List (Option K)) (i : Nat) : K := (x[i]?.getD none).getD 0

/-- `ti[f]` before the division, b_season.cpp 168-170. -/
def ti (n beg dim : Nat) (v : Nat → K) (f : Nat) : K :=
  tot (dim - 2) fun i => if (beg + 1 + i) % n = f then 200 * v (beg + 1 + i) / (v (beg + i) + v (beg + 2 + i)) else 0

/-- The loop over the columns, b_season.cpp 173-179, `k` rounds from `f`: `maxti`, which is `none` for an infinity, and `minti`. A
division of zero by zero changes neither of them. -/
def extremes (n nj : Nat) (t : Nat → K) : Nat → Nat → Option K → K → Option K × K
  | 0, _, mx, mn => (mx, mn)
  | k + 1, f, mx, mn =>
    let d : K := if f = 0 ∨ f = 11 then (nj : K) - 1 else (nj : K)
    if d = 0 then extremes n nj t k (f + 1) (if t f = 0 then mx else none) mn
    else extremes n nj t k (f + 1) (mx.map (max · (t f / d))) (min mn (t f / d))

/-- What `DS_test` leaves: the vector, `beg`, `dim`, `shift` and its answer. -/
structure Tested (K : Type) where
  vec : List (Option K)
  beg : Nat
  dim : Nat
  shift : K
  seasonal : Bool

/-- `DS_test`, b_season.cpp 140-183. -/
def dsTest (n : Nat) (eps : K) (x : List (Option K)) : Tested K :=
  let b := skip x
  let len := runLen (x.drop b)
  let lo := low (x.drop b)
  let shift : K := if lo < 0 then -(11 / 10 * lo) else 0
  let x := if lo < 0 then x.take b ++ raise shift (x.drop b) else x
  let dim := len / n * n
  let beg := b + len - dim
  let x := List.replicate beg none ++ x.drop beg
  let e := extremes n (dim / n) (ti n beg dim (val x)) n 0 (some 0) 150
  ⟨x, beg, dim, shift, match e.1 with | none => true | some mx => decide (|mx - e.2| > eps)⟩

/-- `DS_extr`, b_season.cpp 491-501, `i` is the position of the first element. -/
def extr (n : Nat) (season : Nat → K) (shift : K) : List (Option K) → Nat → List (Option K)
  | some v :: l, i => some (100 * v / season (i % n) - shift) :: extr n season shift l (i + 1)
  | l, _ => l

/-- The positions `0, ..., dim - 1` of a vector. -/
def tab (v : Nat → K) (dim : Nat) : List (Option K) := (List.range dim).map fun f => some (v f)

/-- What is stored for one variable: the series itself and `_C` and `_I`. -/
structure Stored (K : Type) where
  vec : List (Option K)
  comps : Option (List (Option K) × List (Option K))
  deriving DecidableEq

/-- One variable of `B_season`, b_season.cpp 88-115: `x` are the values in the common years. When the test fails the variable is made
from `t_vec` before its values are restored (97-99). -/
def adjust (root : K → K) (n : Nat) (eps : K) (x : List (Option K)) : Res (Stored K) :=
  let t := dsTest n eps x
  if t.seasonal = false then .ok ⟨t.vec, none⟩
  else (dsVec root n (t.dim / n) t.shift fun f => val t.vec (t.beg + f)).bind fun a =>
    let pad (v : Nat → K) := List.replicate t.beg none ++ tab v t.dim ++ List.replicate (x.length - (t.beg + t.dim)) none
    .ok ⟨t.vec.take t.beg ++ tab a.vec t.dim ++ extr n a.season t.shift (t.vec.drop (t.beg + t.dim)) 0, some (pad a.c, pad a.i)⟩

end Iode.Season
