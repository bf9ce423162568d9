import Verif.Model.LstCalc
import Verif.Model.Tbl
import Mathlib.Algebra.Order.Ring.Rat

/-!
# Model of the comparison of a workspace with a file (api/objs/k_cmp.cpp, api/report/commands/b_data.cpp 1477-1643)

The values of variables and scalars are rational numbers: the comparison has no rounding.  The names in a workspace and in a file are keys.
-/
namespace Iode.Compare

open Iode.Args (Text)

/-- `B_DataCompareEps`, b_data.cpp 1477-1484, with the number read. -/
def setEps (x : Rat) : Rat :=
  let e := if x < 1 / 10 ^ 15 then 1 / 10 ^ 15 else x
  if e > 1 then 1 else e

/-- `K_cmpvar_1`, k_cmp.cpp 24-42. -/
def cmpVal (eps v1 v2 : Rat) : Bool :=
  if v1 = v2 then true
  else if v1 = 0 then decide (|v2| < eps)
  else decide (|(v1 - v2) / v1| < eps)

/-- `K_compare_var`, k_cmp.cpp 44-52, with the number of periods of the current workspace: reading behind the end of a vector is undefined. -/
def cmpVar (eps : Rat) (n : Nat) (a b : List Rat) : Res Bool :=
  match n, a, b with
  | 0, _, _ => .ok true
  | n + 1, x :: a, y :: b => if cmpVal eps x y then cmpVar eps n a b else .ok false
  | _ + 1, _, _ => .ub

/-- `Scalar::operator==`, api/objs/scalars.h 57-63. -/
def eqScl (a b : Rat × Rat × Rat) : Bool := a.1 == b.1 && a.2.1 == b.2.1 && a.2.2 == b.2.2

/-- `Equation::operator==`, api/objs/equations.h 524-563, of equations with the same name; `valid` tells whether a formula can be compiled. The compilation gives the
same code for the same formula. -/
def eqEqn (valid : Obj.Text → Bool) (a b : Obj.Eqn) : Bool :=
  decide (a.lec = b.lec) && valid a.lec && decide (a.method = b.method) && decide (a.sample = b.sample) && decide (a.block = b.block) &&
    decide (a.instruments = b.instruments)

/-- `Identity::operator==`, api/objs/identities.h 81-101. -/
def eqIdt (valid : Obj.Text → Bool) (a b : Obj.Text) : Bool := decide (a = b) && valid a

/-- `TableLine::operator==`, api/objs/tables.h 486-506; the cells of texts and of formulas are compared as a whole (366-384). -/
def eqLine (a b : Tbl.Line) : Res Bool :=
  if a.type ≠ b.type ∨ a.right ≠ b.right ∨ a.graph ≠ b.graph then .ok false
  else if a.type = Tbl.tTitle then
    match a.cells, b.cells with
    | x :: _, y :: _ => .ok (decide (x = y))
    | _, _ => .ub
  else if a.type = Tbl.tCell then .ok (decide (a.cells = b.cells))
  else .ok true

/-- The loop over the lines, tables.h 841-847. -/
def eqLines : List Tbl.Line → List Tbl.Line → Res Bool
  | x :: a, y :: b => (eqLine x y).bind fun e => if e then eqLines a b else .ok false
  | _, _ => .ok true

/-- `Table::operator==`, tables.h 827-862.  The bounds of the axes are compared as bits. -/
def eqTbl (a b : Tbl.Table) : Res Bool :=
  if a.language ≠ b.language ∨ a.repeatCols ≠ b.repeatCols ∨ a.ncols ≠ b.ncols then .ok false
  else (eqLine a.divider b.divider).bind fun e =>
    if e = false ∨ a.lines.length ≠ b.lines.length then .ok false
    else (eqLines a.lines b.lines).bind fun e =>
      .ok (e && decide (a.zmin = b.zmin ∧ a.zmax = b.zmax ∧ a.ymin = b.ymin ∧ a.ymax = b.ymax ∧ a.attr = b.attr ∧ a.box = b.box ∧ a.shadow = b.shadow ∧
        a.gridx = b.gridy ∧ a.gridy = b.gridy ∧ a.axis = b.axis ∧ a.align = b.align))

variable {V : Type}

/-- `K_compare`, k_cmp.cpp 69-164, of workspaces of one type, whose objects are compared by `eqv`. -/
def compare (eqv : V → V → Res Bool) (name : Text) (k1 k2 : SMap V) : Res Nat :=
  match k1.find name, k2.find name with
  | none, none => .ok 0
  | some _, none => .ok 1
  | none, some _ => .ok 2
  | some a, some b => (eqv a b).bind fun e => .ok (if e then 3 else 4)

/-- The four tables of names. -/
structure Four where
  l1 : List Text
  l2 : List Text
  l3 : List Text
  l4 : List Text
  deriving DecidableEq

def Four.add (f : Four) (rc : Nat) (name : Text) : Four :=
  match rc with
  | 1 => { f with l1 := f.l1 ++ [name] }
  | 2 => { f with l2 := f.l2 ++ [name] }
  | 3 => { f with l3 := f.l3 ++ [name] }
  | 4 => { f with l4 := f.l4 ++ [name] }
  | _ => f

/-- The loop over the names of the workspace, b_data.cpp 1511-1543: `k2` loses the names found in both. -/
def loop (eqv : V → V → Res Bool) (k1 : SMap V) : List Text → SMap V → Four → Res (Four × SMap V)
  | [], k2, f => .ok (f, k2)
  | x :: xs, k2, f =>
    (compare eqv x k1 k2).bind fun rc => loop eqv k1 xs (if rc > 2 then k2.erase x else k2) (f.add rc x)

/-- Both loops, b_data.cpp 1511-1555. -/
def four (eqv : V → V → Res Bool) (k1 k2 : SMap V) : Res Four :=
  (loop eqv k1 k1.keys k2 ⟨[], [], [], []⟩).bind fun r => .ok { r.1 with l2 := r.1.l2 ++ r.2.keys }

/-- `template_data_compare`, b_data.cpp 1486-1573: the lists afterwards and whether 0 is returned.  `k2` is the content of the file. -/
def dataCompare (eqv : V → V → Res Bool) (k1 k2 : SMap V) (st : Lists.Store) (one two three for_ : Text) : Res Lists.Out :=
  if k2.isEmpty then .ok ⟨st, false⟩
  else (four eqv k1 k2).bind fun f =>
    (Lists.split st one f.l1 10000).bind fun o => (Lists.split o.store two f.l2 10000).bind fun o =>
      (Lists.split o.store three f.l3 10000).bind fun o => Lists.split o.store for_ f.l4 10000

end Iode.Compare
