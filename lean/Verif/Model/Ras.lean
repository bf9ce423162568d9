import Verif.Model.Res
import Verif.Model.SMap
import Mathlib.Algebra.Order.Field.Basic
import Mathlib.Algebra.Order.Group.Abs

/-!
# Model of the RAS balancing (api/report/commands/b_ras.cpp)

Numbers are exact (an ordered field `K`), `none` is the missing value `IODE_NAN`.  The names of the variables are given by
`name : Nat → Nat → Name` (row, column), the last row and the last column being the totals: the substitution of `x` and `y` in the
pattern (`SCR_replace`) and the size of its buffers are not modelled.
-/
namespace Iode.Ras

variable {K : Type} [Field K] [LinearOrder K]

/-- `MAT`: entries by row and column. -/
abbrev Mat (K : Type) := Nat → Nat → K

/-- `for(i = k; ...; i++) s += f(i)`, `n` rounds left. -/
def sumLoop (f : Nat → K) : Nat → Nat → K → K
  | 0, _, s => s
  | n + 1, i, s => sumLoop f n (i + 1) (s + f i)

/-- The factor of a row or column, b_ras.cpp 91-92, 109-110. -/
def factor (target s : K) : K := if |s| > 0 then target / s else 0

/-- `if(dis > dismax) dismax = dis`, b_ras.cpp 95-100, 112-117. -/
def keepMax (m f : K) : K := if |f - 1| > m then |f - 1| else m

/-- The loop over the columns, b_ras.cpp 86-101, `n` rounds left: the matrix and `cdismax`. -/
def colLoop (nr : Nat) (col : Nat → K) : Nat → Nat → Mat K → K → Mat K × K
  | 0, _, a, m => (a, m)
  | n + 1, j, a, m =>
    if col j = 0 then colLoop nr col n (j + 1) a m
    else
      let f := factor (col j) (sumLoop (fun i => a i j) nr 0 0)
      colLoop nr col n (j + 1) (fun i j' => if j' = j then a i j' * f else a i j') (keepMax m f)

/-- The loop over the rows, b_ras.cpp 103-118, `n` rounds left: the matrix and `rdismax`. -/
def rowLoop (nc : Nat) (row : Nat → K) : Nat → Nat → Mat K → K → Mat K × K
  | 0, _, a, m => (a, m)
  | n + 1, i, a, m =>
    if row i = 0 then rowLoop nc row n (i + 1) a m
    else
      let f := factor (row i) (sumLoop (fun j => a i j) nc 0 0)
      rowLoop nc row n (i + 1) (fun i' j => if i' = i then a i' j * f else a i' j) (keepMax m f)

/-- One iteration, b_ras.cpp 81-120: the matrix and `dismax`. -/
def step (nr nc : Nat) (row col : Nat → K) (a : Mat K) : Mat K × K :=
  let c := colLoop nr col nc 0 a 0
  let r := rowLoop nc row nr 0 c.1 0
  (r.1, if c.2 > r.2 then c.2 else r.2)

/-- The iterations, b_ras.cpp 80-122; `n` is the number of times `goto top` may still be taken. -/
def iterate (nr nc : Nat) (row col : Nat → K) (eps : K) : Nat → Mat K → Mat K × K
  | 0, a => step nr nc row col a
  | n + 1, a =>
    let r := step nr nc row col a
    if r.2 > eps then iterate nr nc row col eps n r.1 else r

/-- `RasCalc`, b_ras.cpp 60-136; `none` is the return value `-1`. -/
def balance (nr nc : Nat) (row col : Nat → K) (maxiter : Nat) (eps : K) (a : Mat K) : Option (Mat K) :=
  if |sumLoop col nc 0 0 - sumLoop row nr 0 0| > eps then none
  else
    let r := iterate nr nc row col eps maxiter a
    if r.2 > eps then none else some r.1

/-! ## The command -/

abbrev Name := List Char

/-- `if(fabs(var) < 1e-10) var = 0.0`, b_ras.cpp 54-55. -/
def flush (v : K) : K := if |v| < 1 / 10 ^ 10 then 0 else v

/-- `RasGetVar`, b_ras.cpp 39-58; a period outside of the sample throws (variables.h 203-208). -/
def getVar (vars : SMap (List (Option K))) (k : Name) (t : Nat) : Res (Option K) :=
  match vars.find k with
  | none => .ok none
  | some x => match x[t]? with
    | none => .err
    | some v => .ok (v.map flush)

/-- Matrix and totals. -/
structure Data (K : Type) where
  a : Mat K
  row : Nat → K
  col : Nat → K

/-- One cell, b_ras.cpp 195-206: the reference value, or 0 if the cell is fixed in the current period. -/
def readCell (vars : SMap (List (Option K))) (k : Name) (rt ct r c : Nat) (d : Data K) : Res (Data K) :=
  (getVar vars k rt).bind fun v => match v with
  | none => .err
  | some v => (getVar vars k ct).bind fun fv => match fv with
    | none => .ok { d with a := fun i j => if i = r ∧ j = c then v else d.a i j }
    | some w => .ok ⟨fun i j => if i = r ∧ j = c then 0 else d.a i j, fun i => if i = r then d.row i - w else d.row i,
        fun j => if j = c then d.col j - w else d.col j⟩

/-- The loop over the columns, b_ras.cpp 191-207, `n` rounds left. -/
def readCols (vars : SMap (List (Option K))) (name : Nat → Nat → Name) (rt ct r : Nat) : Nat → Nat → Data K → Res (Data K)
  | 0, _, d => .ok d
  | n + 1, c, d => (readCell vars (name r c) rt ct r c d).bind fun d => readCols vars name rt ct r n (c + 1) d

/-- The loop over the rows, b_ras.cpp 187-208, `n` rounds left. -/
def readRows (vars : SMap (List (Option K))) (name : Nat → Nat → Name) (rt ct nc : Nat) : Nat → Nat → Data K → Res (Data K)
  | 0, _, d => .ok d
  | n + 1, r, d => (readCols vars name rt ct r nc 0 d).bind fun d => readRows vars name rt ct nc n (r + 1) d

/-- The totals, b_ras.cpp 212-218, 222-228: the value of the variable is added to what is there, `n` rounds left. -/
def addTotals (vars : SMap (List (Option K))) (name : Nat → Name) (ct : Nat) : Nat → Nat → (Nat → K) → Res (Nat → K)
  | 0, _, f => .ok f
  | n + 1, i, f => (getVar vars (name i) ct).bind fun v => match v with
    | none => .err
    | some v => addTotals vars name ct n (i + 1) (fun i' => if i' = i then f i' + v else f i')

/-- One cell of the result, b_ras.cpp 241-242: only a missing value is replaced. -/
def writeCell (k : Name) (ct : Nat) (v : K) (vars : SMap (List (Option K))) : Res (SMap (List (Option K))) :=
  (getVar vars k ct).bind fun w => match w with
  | some _ => .ok vars
  | none => match vars.find k with
    | none => .err
    | some x => .ok (vars.insert k (x.set ct (some v)))

/-- The loops that write the result, b_ras.cpp 237-243, `n` rounds left. -/
def writeCols (name : Nat → Nat → Name) (ct : Nat) (a : Mat K) (r : Nat) : Nat → Nat → SMap (List (Option K)) → Res (SMap (List (Option K)))
  | 0, _, vars => .ok vars
  | n + 1, c, vars => (writeCell (name r c) ct (a r c) vars).bind fun vars => writeCols name ct a r n (c + 1) vars

def writeRows (name : Nat → Nat → Name) (ct : Nat) (a : Mat K) (nc : Nat) : Nat → Nat → SMap (List (Option K)) → Res (SMap (List (Option K)))
  | 0, _, vars => .ok vars
  | n + 1, r, vars => (writeCols name ct a r nc 0 vars).bind fun vars => writeRows name ct a nc n (r + 1) vars

/-- `RasExecute`, b_ras.cpp 152-253, `nr` rows and `nc` columns without the totals, for the positions `rt` and `ct` of the reference
and the current period; `row` and `col` start at 0 (`SCR_malloc` clears). -/
def execute (name : Nat → Nat → Name) (nr nc rt ct maxit : Nat) (eps : K) (vars : SMap (List (Option K))) :
    Res (SMap (List (Option K))) :=
  if nr = 0 ∨ nc = 0 then .err
  else
    (readRows vars name rt ct nc nr 0 ⟨fun _ _ => 0, fun _ => 0, fun _ => 0⟩).bind fun d =>
    (addTotals vars (fun r => name r nc) ct nr 0 d.row).bind fun row =>
    (addTotals vars (fun c => name nr c) ct nc 0 d.col).bind fun col =>
      match balance nr nc row col maxit eps d.a with
      | none => .err
      | some a => writeRows name ct a nc nr 0 vars

end Iode.Ras
