import Verif.Model.Vars

/-!
# Operations on ranges of variables (pyiode/iode_database/variables_database.cpp)

The functions behind `vars += x`, `vars[...] = other` and the like of the Python interface: `_c_operation_scalar`,
`_c_operation_one_period`, `_c_operation_one_var`, `_c_operation_between_two_vars`, `_c_copy_var_content` and
`_c_add_var_from_other`.

Simplifications
* the arithmetic of doubles is a parameter, missing values are numbers like the others (`IODE_NAN` is -2e37);
* the databases are not null; `op` is one of the five operations;
* an array of values that comes from Python is a list, reading behind its end is undefined.
-/
namespace Iode.VarOps

open VWorld World

variable {α : Type}

/-- `BinaryOperation`, variables_database.cpp 115-122. -/
inductive BinOp where
  | add | sub | mul | div | pow
  deriving DecidableEq

/-- The arithmetic of doubles: the five operations, and `value == 0`. -/
structure Arith (α : Type) where
  op : BinOp → α → α → α
  isZero : α → Bool

/-- Where the second operand is read: a number, an array, or a variable from a position on (a `double*` into its values). -/
inductive Src (α : Type) where
  | const (y : α)
  | buf (l : List α)
  | mem (a : Nat) (s : Nat)

/-- The `k`-th value that is read. -/
def Src.read (w : World (List α)) : Src α → Nat → Option α
  | .const y, _ => some y
  | .buf l, k => l[k]?
  | .mem a s, k => (w.heap a)[s + k]?

/-- The loops `for(t = first; t <= last; t++) var[t] = g(var[t], values[t - first])`: `n` rounds, from position `t` and value `k`; `stop` is the test that throws. -/
def pairLoop (stop : α → Bool) (g : α → α → α) (a : Nat) (src : Src α) : Nat → Nat → Nat → World (List α) → World (List α) × Res Bool
  | 0, _, _, w => (w, .ok true)
  | n + 1, t, k, w =>
    match src.read w k with
    | none => (w, .ub)
    | some y =>
      if stop y then (w, .err)
      else match (w.heap a)[t]? with
        | none => (w, .ub)
        | some x => pairLoop stop g a src n (t + 1) (k + 1) (w.writeCore a ((w.heap a).set t (g x y)))

/-- The outer loop of `_c_operation_scalar`, over the objects of a database, variables_database.cpp 139-178. -/
def allLoop (g : α → α → α) (value : α) (first n : Nat) : List (Name × Nat) → World (List α) → World (List α) × Res Bool
  | [], w => (w, .ok true)
  | (_, a) :: as, w =>
    match pairLoop (fun _ => false) g a (.const value) n first 0 w with
    | (w1, .ok _) => allLoop g value first n as w1
    | r => r

/-- `_c_operation_scalar`, variables_database.cpp 124-179. -/
def opScalar (ar : Arith α) (o : BinOp) (v : VWorld α) (i : Nat) (first last : Int) (value : α) : VWorld α × Res Bool :=
  if first < 0 ∨ last < 0 then (v, .err)
  else if first > last then (v, .err)
  else if first ≥ v.nb i then (v, .err)
  else if last ≥ v.nb i then (v, .err)
  else if o = .div ∧ ar.isZero value = true then (v, .err)
  else v.withW (allLoop (ar.op o) value first.toNat (last - first + 1).toNat (v.w.dbs i).objs v.w)

/-- The loops of `_c_operation_one_period`, variables_database.cpp 197-224. -/
def periodLoop (ar : Arith α) (o : BinOp) (t : Nat) : List (Name × Nat) → List α → World (List α) → World (List α) × Res Bool
  | [], _, w => (w, .ok true)
  | _ :: _, [], w => (w, .ub)
  | (_, a) :: as, y :: ys, w =>
    if o = .div ∧ ar.isZero y = true then (w, .err)
    else match (w.heap a)[t]? with
      | none => (w, .ub)
      | some x => periodLoop ar o t as ys (w.writeCore a ((w.heap a).set t (ar.op o x y)))

/-- `_c_operation_one_period`, variables_database.cpp 181-225; `nb_values` is the length of the array. -/
def opPeriod (ar : Arith α) (o : BinOp) (v : VWorld α) (i : Nat) (t : Int) (values : List α) : VWorld α × Res Bool :=
  if t < 0 then (v, .err)
  else if t ≥ v.nb i then (v, .err)
  else if values.length ≠ (v.w.dbs i).objs.length then (v, .err)
  else v.withW (periodLoop ar o t.toNat (v.w.dbs i).objs values v.w)

/-- `_c_operation_one_var`, variables_database.cpp 227-280. -/
def opVar (ar : Arith α) (o : BinOp) (v : VWorld α) (i : Nat) (name : Name) (first last : Int) (src : Src α) : VWorld α × Res Bool :=
  if name = [] then (v, .err)
  else if first < 0 then (v, .err)
  else if last < 0 then (v, .err)
  else if first > last then (v, .err)
  else if last ≥ v.nb i then (v, .err)
  else if (v.w.dbs i).contains ty name = false then (v, .err)
  else match (v.w.dbs i).getObjPtr ty name with
    | none => (v, .err)
    | some a => v.withW (pairLoop (fun y => decide (o = .div) && ar.isZero y) (ar.op o) a src (last - first + 1).toNat first.toNat 0 v.w)

/-- `_c_sanity_checks`, variables_database.cpp 9-51. -/
def sane (v : VWorld α) (i : Nat) (d1 d2 : Int) (j : Nat) (s1 s2 : Int) : Bool :=
  !(decide ((v.w.dbs j).objs.length = 0) || decide ((v.w.dbs i).objs.length = 0)
    || decide (d1 < 0 ∨ d2 < 0 ∨ s1 < 0 ∨ s2 < 0) || decide (d1 > d2) || decide (s1 > s2)
    || decide (s2 ≥ v.nb j) || decide (d2 ≥ v.nb i) || decide (d2 - d1 + 1 ≠ s2 - s1 + 1))

/-- `_c_operation_between_two_vars`, variables_database.cpp 282-303. -/
def opVars (ar : Arith α) (o : BinOp) (v : VWorld α) (i : Nat) (name : Name) (d1 d2 : Int) (j : Nat) (other : Name) (s1 s2 : Int) : VWorld α × Res Bool :=
  if name = [] then (v, .err)
  else if other = [] then (v, .err)
  else if sane v i d1 d2 j s1 s2 = false then (v, .err)
  else if (v.w.dbs j).contains ty other = false then (v, .err)
  else match (v.w.dbs j).getObjPtr ty other with
    | none => (v, .err)
    | some b => opVar ar o v i name d1 d2 (.mem b s1.toNat)

/-- `_c_copy_var_content`, variables_database.cpp 82-113. -/
def copyContent (v : VWorld α) (i : Nat) (name : Name) (d1 d2 : Int) (j : Nat) (other : Name) (s1 s2 : Int) : VWorld α × Res Bool :=
  if name = [] then (v, .err)
  else if other = [] then (v, .err)
  else if sane v i d1 d2 j s1 s2 = false then (v, .err)
  else if (v.w.dbs i).contains ty name = false then (v, .err)
  else if (v.w.dbs j).contains ty other = false then (v, .err)
  else match (v.w.dbs i).getObjPtr ty name, (v.w.dbs j).getObjPtr ty other with
    | some a, some b => v.withW (pairLoop (fun _ => false) (fun _ y => y) a (.mem b s1.toNat) (d2 - d1 + 1).toNat d1.toNat 0 v.w)
    | _, _ => (v, .err)

/-- The values of the new variable, variables_database.cpp 75-78. -/
def readLoop (x : List α) : Nat → Nat → Res (List α)
  | 0, _ => .ok []
  | n + 1, s =>
    match x[s]? with
    | none => .ub
    | some y => (readLoop x n (s + 1)).bind fun l => .ok (y :: l)

/-- `_c_add_var_from_other`, variables_database.cpp 53-80: the variable is the first one of the source. -/
def addFrom (v : VWorld α) (i : Nat) (name : Name) (j : Nat) (s1 s2 : Int) : VWorld α × Res Bool :=
  if name = [] then (v, .err)
  else if sane v i 0 (v.nb i - 1) j s1 s2 = false then (v, .err)
  else match (v.w.dbs j).objs with
    | [] => (v, .err)
    | (k, _) :: _ =>
      if (v.w.dbs j).contains ty k = false then (v, .err)
      else match (v.w.dbs j).getObjPtr ty k with
        | none => (v, .err)
        | some b =>
          match readLoop (v.w.heap b) (v.nb i).toNat s1.toNat with
          | .ok x => v.set i name x
          | _ => (v, .ub)

end Iode.VarOps
