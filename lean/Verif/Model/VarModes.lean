import Verif.Model.Vars
import Mathlib.Algebra.Field.Basic

/-!
# Reading and writing one value in a mode, extrapolation (api/objs/k_wsvar.cpp:200-472)

Values are `Option F`, `none` being `IODE_NAN` (`IODE_IS_A_NUMBER` is `isSome`), over a field `F`: exact arithmetic.
`isZero` is `IODE_IS_0` (api/constants.h:229), of which only `isZero 0` is known.

Simplifications
* doubles are exact; a finite result below -1.0e37 counts as a number here and as NA in the code;
* `set<string>` of selected names is a list in `extrapolate`; pattern matching is not modelled here (a list of names).
-/
namespace Iode

/-- `VariableMode`: LEVEL, DIFF, GROWTH_RATE, Y0Y_DIFF, Y0Y_GROWTH_RATE (api/objs/variables.h). -/
inductive VarMode where
  | level | diff | growth | yoyDiff | yoyGrowth
  deriving DecidableEq

/-- `pernb` as the `switch` leaves it (api/objs/k_wsvar.cpp:229-276): one period, or one year. -/
def VarMode.lag (perYear : Int) : VarMode → Int
  | .level => 0
  | .diff | .growth => 1
  | .yoyDiff | .yoyGrowth => perYear

variable {F : Type} [Field F]

/-- The `switch` of `KV_get` (api/objs/k_wsvar.cpp:242-277); an access outside the vector is undefined. -/
def modeGet (isZero : F → Bool) (m : VarMode) (lag : Int) (x : List (Option F)) (t : Nat) : Res (Option F) :=
  match m with
  | .level =>
    match x[t]? with
    | none => .ub
    | some y => .ok y
  | .diff | .yoyDiff =>
    if (t : Int) < lag then .ok none
    else match x[t]?, x[((t : Int) - lag).toNat]? with
      | some (some a), some (some b) => .ok (some (a - b))
      | some _, some _ => .ok none
      | _, _ => .ub
  | .growth | .yoyGrowth =>
    if (t : Int) < lag then .ok none
    else match x[t]?, x[((t : Int) - lag).toNat]? with
      | some (some a), some (some b) => .ok (if isZero b then none else some ((a / b - 1) * 100))
      | some _, some _ => .ok none
      | _, _ => .ub

/-- The `switch` of `KV_set` (api/objs/k_wsvar.cpp:337-363): the new contents of the variable. -/
def modeSet (m : VarMode) (lag : Int) (x : List (Option F)) (t : Nat) (value : Option F) : Res (List (Option F)) :=
  match m with
  | .level => if t < x.length then .ok (x.set t value) else .ub
  | .diff | .yoyDiff =>
    if (t : Int) < lag then .ok x
    else match x[((t : Int) - lag).toNat]? with
      | none => .ub
      | some r =>
        if t < x.length then
          .ok (x.set t (match value, r with | some a, some b => some (b + a) | _, _ => none))
        else .ub
  | .growth | .yoyGrowth =>
    if (t : Int) < lag then .ok x
    else match x[((t : Int) - lag).toNat]? with
      | none => .ub
      | some r =>
        if t < x.length then
          .ok (x.set t (match value, r with | some a, some b => some ((a / 100 + 1) * b) | _, _ => none))
        else .ub

namespace VWorld

/-- `KV_get` (api/objs/k_wsvar.cpp:200-280). `get_nb_periods_per_year` may throw. -/
def kvGet (isZero : F → Bool) (v : VWorld (Option F)) (i : Nat) (name : Name) (t : Int) (m : VarMode) : Res (Option F) :=
  match (v.w.dbs i).getObjPtr ty name with
  | none => .ok none
  | some a =>
    match v.smp i with
    | none => .ok none
    | some s =>
      if t < 0 ∨ t ≥ s.nb then .ok none
      else match nbPeriodsPerYear s.start.periodicity with
        | .ok p => modeGet isZero m (m.lag p) (v.w.heap a) t.toNat
        | .err => .err
        | .ub => .ub

/-- `KV_set` (api/objs/k_wsvar.cpp:300-364). -/
def kvSet (v : VWorld (Option F)) (i : Nat) (name : Name) (t : Int) (m : VarMode) (value : Option F) :
    VWorld (Option F) × Res Bool :=
  match (v.w.dbs i).getObjPtr ty name with
  | none => (v, .ok true)
  | some a =>
    match v.smp i with
    | none => (v, .ok true)
    | some s =>
      if t < 0 ∨ t ≥ s.nb then (v, .ok true)
      else match nbPeriodsPerYear s.start.periodicity with
        | .ok p =>
          match modeSet m (m.lag p) (v.w.heap a) t.toNat value with
          | .ok x => ({ v with w := v.w.writeCore a x }, .ok true)
          | .err => (v, .err)
          | .ub => (v, .ub)
        | .err => (v, .err)
        | .ub => (v, .ub)

end VWorld

/-! ## Extrapolation -/

/-- `VarsInitialization` (api/objs/variables.h): TM1, TM1_A, EXTRA, EXTRA_A, ASIS, TM1_NA, EXTRA_NA. -/
inductive InitMethod where
  | tm1 | tm1A | extra | extraA | asis | tm1NA | extraNA
  deriving DecidableEq

/-- Does the method leave the present value alone (the early `return`s of api/objs/k_wsvar.cpp:393-409)? -/
def InitMethod.skips (isZero : F → Bool) : InitMethod → Option F → Bool
  | .tm1, some x | .extra, some x => !(isZero x)
  | .tm1NA, some _ | .extraNA, some _ => true
  | .asis, _ => true
  | _, _ => false

/-- `calc1` (api/objs/k_wsvar.cpp:400-402). -/
def calc1 (x : List (Option F)) (t : Nat) : Option F :=
  if t > 0 then (match x[t - 1]? with | some (some a) => some a | _ => some 1) else some 1

/-- `calc2` (api/objs/k_wsvar.cpp:411-417). -/
def calc2 (x : List (Option F)) (t : Nat) : Option F :=
  if t > 0 then
    match x[t - 1]? with
    | some (some a) =>
      if t > 1 then (match x[t - 2]? with | some (some b) => some (2 * a - b) | _ => some a) else some a
    | _ => some 1
  else some 1

/-- `KV_init_values_1` (api/objs/k_wsvar.cpp:389-421). -/
def initValue (isZero : F → Bool) (m : InitMethod) (x : List (Option F)) (t : Nat) : Res (List (Option F)) :=
  match x[t]? with
  | none => .ub
  | some cur =>
    if m.skips isZero cur then .ok x
    else match m with
      | .tm1 | .tm1NA | .tm1A => .ok (x.set t (calc1 x t))
      | .extra | .extraNA | .extraA => .ok (x.set t (calc2 x t))
      | .asis => .ok x

/-- The loop over the periods (api/objs/k_wsvar.cpp:467-468). -/
def initLoop (isZero : F → Bool) (m : InitMethod) (x : List (Option F)) (t : Nat) : Nat → Res (List (Option F))
  | 0 => .ok x
  | n + 1 =>
    match initValue isZero m x t with
    | .ok y => initLoop isZero m y (t + 1) n
    | .err => .err
    | .ub => .ub

namespace VWorld

/-- The loop of `KV_extrapolate` over the names (api/objs/k_wsvar.cpp:464-469). -/
def extrapolateLoop (isZero : F → Bool) (m : InitMethod) (v : VWorld (Option F)) (i : Nat) (bt n : Nat) :
    List Name → VWorld (Option F) × Res Bool
  | [] => (v, .ok true)
  | k :: ks =>
    match (v.w.dbs i).getObjPtr ty k with
    | none => (v, .err)
    | some a =>
      match initLoop isZero m (v.w.heap a) bt n with
      | .ok x => extrapolateLoop isZero m { v with w := v.w.writeCore a x } i bt n ks
      | .err => (v, .err)
      | .ub => (v, .ub)

/-- `KV_extrapolate` (api/objs/k_wsvar.cpp:438-472) on the names `ks` that the pattern selects. `.err` stands for the
    code -1 and for an exception; a database without sample is a null pointer. -/
def extrapolate (isZero : F → Bool) (m : InitMethod) (v : VWorld (Option F)) (i : Nat) (s : Sample) (ks : List Name) :
    VWorld (Option F) × Res Bool :=
  match v.smp i with
  | none => (v, .ub)
  | some own =>
    match s.start.difference own.start, own.stop.difference s.stop with
    | .ok bt, .ok at_ =>
      if bt < 0 ∨ at_ < 0 then (v, .err)
      else if (v.w.dbs i).objs = [] then (v, .err)
      else extrapolateLoop isZero m v i bt.toNat s.nb.toNat ks
    | .ub, _ => (v, .ub)
    | _, .ub => (v, .ub)
    | _, _ => (v, .err)

end VWorld
end Iode
