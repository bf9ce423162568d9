import Verif.Model.GSample
import Mathlib.Algebra.Order.Field.Basic

/-!
# Model of the calculation of the cells of a table (api/gsample/c_calc.cpp)

Numbers are exact; `pow` of the C library is a parameter.  The formulas of a cell and of its divisor are given, for each file, by their
values at the positions of the sample of the file (`L_exec`, properties C24 to C29) and by the success of linking them.
-/
namespace Iode.TblCalc

open Iode.GSample

variable {K : Type} [Field K] [LinearOrder K]

/-- A formula and its divisor in one file: start of the sample, success of `link` for both, values. -/
structure Source (K : Type) where
  start : Period
  linked : Bool
  cell : Int → Option K
  divLinked : Bool
  div : Int → Option K

/-- What becomes of `cl_res`: a number, `IODE_NAN`; `stop` when -1 is returned without any result. -/
inductive Out (K : Type) where
  | num (x : K)
  | na
  | stop
deriving DecidableEq

/-- The value at position `t` divided by the divisor, c_calc.cpp 135-143 and 202-210. -/
def quot (s : Source K) (hasDiv : Bool) (t : Int) : Option K :=
  match s.cell t with
  | none => none
  | some y =>
    match if hasDiv then s.div t else some 1 with
    | none => none
    | some d => if d = 0 then none else some (y / d)

/-- The loop of `COL_MEAN` and `COL_ADD`, c_calc.cpp 199-211, `c` rounds left. -/
def addUp (v : Int → Option K) : Nat → Int → K → Option K
  | 0, _, acc => some acc
  | c + 1, j, acc =>
    match v j with
    | none => none
    | some y => addUp v c (j + 1) (acc + y)

/-- The operation between the values of two periods at positions `t0` and `t1`, c_calc.cpp 146-217. -/
def periodOp (pow : K → K → K) (v : Int → Option K) (op : Op) (t0 t1 : Int) (y0 y1 : K) : Option K :=
  let lo := min t0 t1
  let per := max t0 t1 - lo
  match op with
  | .mdiff => if per = 0 then some 0 else some ((y0 - y1) / per)
  | .mgrt =>
    if per = 0 then some 0
    else if y1 = 0 then none
    else
      let mant := y0 / y1
      if mant < 0 then some (-1 * 100 * (pow (-mant) (1 / per) - 1)) else some (1 * 100 * (pow mant (1 / per) - 1))
  | .base => if y1 = 0 then none else some (100 * (y0 / y1))
  | .diff => some (y0 - y1)
  | .grt => if y1 = 0 then none else some (100 * (y0 / y1 - 1))
  | .mean => (addUp v (per + 1).toNat lo 0).map fun x => x / (per + 1)
  | .add => addUp v (per + 1).toNat lo 0

/-- The body of the loop over the two files of `COL_calc`, c_calc.cpp 124-217, for one file: `Period::difference` throws when the
    periodicities differ; `none` is the jump to `err`. -/
def fileVal (pow : K → K → K) (c : Col) (s : Source K) (hasDiv : Bool) : Res (Option K) :=
  let v := quot s hasDiv
  (c.per.difference s.start).bind fun t0 =>
    match v t0 with
    | none => .ok none
    | some y0 =>
      match c.opy with
      | none => .ok (some y0)
      | some (op, p1) =>
        (p1.difference s.start).bind fun t1 =>
          match v t1 with
          | none => .ok none
          | some y1 => .ok (periodOp pow v op t0 t1 y0 y1)

/-- The operation between two files, c_calc.cpp 220-246. -/
def fileOp (op : Op) (x y : K) : Out K :=
  match op with
  | .diff => .num (x - y)
  | .mean => .num (1 / 2 * (x + y))
  | .grt => if y = 0 then .na else .num (100 * (x / y - 1))
  | .base => if y = 0 then .na else .num (100 * (x / y))
  | .add => .num (x + y)
  | .mdiff => .na
  | .mgrt => .na

/-- One file: linking, c_calc.cpp 75-86 and 114-124, then its value, passed on to `k`.  `global_ref_var` has five elements, variables.h 366:
    any other number reads outside of it; file 0 is skipped, 114-115, and its value is then read before it has one. -/
def oneFile (pow : K → K → K) (c : Col) (src : Int → Option (Source K)) (hasDiv : Bool) (f : Int) (k : K → Res (Out K)) : Res (Out K) :=
  if f < 1 ∨ 5 < f then .ub
  else match src f with
  | none => .ok .na
  | some s =>
    if !s.linked then .ok .na
    else if hasDiv && !s.divLinked then .ok .stop
    else (fileVal pow c s hasDiv).bind fun r =>
      match r with
      | none => .ok .na
      | some x => k x

/-- `COL_calc`, c_calc.cpp 105-252. -/
def colCalc (pow : K → K → K) (src : Int → Option (Source K)) (hasDiv : Bool) (c : Col) : Res (Out K) :=
  oneFile pow c src hasDiv c.file fun x =>
    match c.opf with
    | none => .ok (.num x)
    | some (op, f) => oneFile pow c src hasDiv f fun y => .ok (fileOp op x y)

/-- `COL_resize`, c_calc.cpp 268-290: the columns. -/
def resize (dim : Nat) (cols : List Col) : List Col := cols.flatMap fun c => List.replicate dim c

/-- The loop over the columns of the sample in `COL_exec`, c_calc.cpp 352-359, `c` rounds left: false if it was left with -1.  The results
    are `cl_res` of the columns, `none` for `IODE_NAN`. -/
def execCols (f : Col → Res (Out K)) (cols : List Col) (dim d : Nat) : Nat → Nat → List (Option K) → Res (Bool × List (Option K))
  | 0, _, res => .ok (true, res)
  | c + 1, j, res =>
    match cols[d + j * dim]? with
    | none => .ub
    | some col =>
      (f col).bind fun o =>
        match o with
        | .num x => execCols f cols dim d c (j + 1) (res.set (d + j * dim) (some x))
        | .na => execCols f cols dim d c (j + 1) (res.set (d + j * dim) none)
        | .stop => .ok (false, res)

/-- The loop over the cells of the line, c_calc.cpp 334-360: `cells` from cell `d` on, `none` for a cell without a formula. -/
def execCells (cols : List Col) (dim : Nat) : List (Option (Col → Res (Out K))) → Nat → List (Option K) → Res (Bool × List (Option K))
  | [], _, res => .ok (true, res)
  | none :: cells, d, res => execCells cols dim cells (d + 1) res
  | some f :: cells, d, res =>
    (execCols f cols dim d (cols.length / dim) 0 res).bind fun r =>
      if r.1 then execCells cols dim cells (d + 1) r.2 else .ok r

/-- `COL_clear` then `COL_exec`, c_calc.cpp 299-305 and 321-362; `cols` are the columns after `COL_resize`. -/
def execLine (cols : List Col) (cells : List (Option (Col → Res (Out K)))) : Res (Bool × List (Option K)) :=
  execCells cols cells.length cells 0 (List.replicate cols.length (some 0))

end Iode.TblCalc
