import Verif.Model.GSample
import Verif.Model.LecInvert
import Verif.Model.Printf

/-!
# Model of the edition of a cell of a computed table (cpp_api/computed_table/computed_table.cpp)

The formulas of the cell and of its divisor are their tokens (Model/LecLex); all the names exist (`link` succeeds).  An exception thrown
to the caller is `none`.  The second attempt, by the Newton-Raphson method, for a variable found twice is a parameter: it begins by
compiling a text with `:=` in it, which is what the model follows.
-/
namespace Iode.TblEdit

open Iode.Lec Iode.GSample

variable {F : Type}

/-- The formula of a cell, the formula of its divisor (`[]` when there is none), and whether the text of the formula begins with `0+`. -/
structure Cell where
  lec : List RTok
  div : List RTok
  zeroPlus : Bool

/-- The first variable of a formula, `get_variables_from_lec().at(0)`, tables.h 327-331 and lec.h 238-247: the names are in the order in
    which they are met in the text. -/
def firstVar : List RTok → Option Name
  | [] => none
  | .var x :: _ => some x
  | _ :: ts => firstVar ts

/-- `is_editable`, computed_table.cpp 207-235. -/
def editable (c : Cell) (col : Col) : Bool :=
  col.opy.isNone && col.opf.isNone && decide (col.file = 1) && !c.zeroPlus && (firstVar c.lec).isSome

/-- The value printed with 8 decimals, computed_table.cpp 248: an optional sign and digits. -/
def valueToks (v : Rat) : List RTok :=
  (if v < 0 then [.op .minus] else []) ++ [.cst (.real (Printf.roundEven (|v| * 10 ^ 8)) (10 ^ 8))]

/-- The right hand side of the formula, computed_table.cpp 250 and 344-346. -/
def rightSide (c : Cell) (v : Rat) : List RTok :=
  valueToks v ++ .op .times :: (if c.div = [] then [.cst (.long 1)] else c.div)

/-- `KV_set` with `VAR_MODE_LEVEL`, k_wsvar.cpp 300-340: a warning and no change outside of the sample. -/
def kvSet (E : Env F) (x : Name) (t : Int) (v : F) : Env F :=
  if t < 0 ∨ E.nb ≤ t then E else { E with var := fun y i => if y = x ∧ i = t then v else E.var y i }

/-- `propagate_new_value`, computed_table.cpp 241-306: the new workspace, `none` when `false` is returned.  `rest` is what follows the colon in
    the text compiled at 277, `solve` what is done if this succeeds. -/
def propagate (A : Arith F) (E : Env F) (rest : List RTok) (solve : List Atom → Res (Option (Env F))) (c : Cell) (x : Name) (v : Rat)
    (t : Int) : Res (Option (Env F)) :=
  match invert (group c.lec) (group (rightSide c v)) x with
  | .ub => .ub
  | .err => .ok none
  | .ok (true, _) =>
    match compile [] (group (c.lec ++ .bad :: rest)) with
    | .ok as => solve as
    | .err _ => .ok none
    | .ub => .ub
  | .ok (false, as) =>
    match build as with
    | .ub => .ub
    | .err => .ok none
    | .ok code => (execSub A E code t).bind fun z => if A.isNum z then .ok (some (kvSet E x t z)) else .ok none

/-- `set_value`, computed_table.cpp 312-358, with `check_if_editable`; `start` is the first period of the variables. -/
def setValue (A : Arith F) (E : Env F) (rest : List RTok) (solve : List Atom → Res (Option (Env F))) (start : Period) (c : Cell) (col : Col)
    (v : Rat) : Res (Option (Env F)) :=
  if !editable c col then .ok none
  else
    match firstVar c.lec with
    | none => .ok none
    | some x =>
      match col.per.difference start with
      | .ok t => propagate A E rest solve c x v t
      | .err => .ok none
      | .ub => .ub

end Iode.TblEdit
