import Verif.Model.DataCmd
import Verif.Model.Report

/-!
# Model of the reading of the arguments of the commands on models and identities

Source: api/report/commands/b_model.cpp, api/report/commands/b_idt.cpp, api/b_args.cpp.

What is computed then is in SimRun, Scc and Idt.

Simplifications
* blanks that `U_ljust_text` adds at the end of an argument are left out;
* `atof` reads decimal numbers, as in DataCmd.
-/
namespace Iode.ModelCmd

open Iode.Args (Text)
open Iode.DataCmd (left bseps)

/-- `B_get_arg0(w, arg, lg)`, api/b_args.cpp 183-195: the word, and the argument behind it; the argument is changed (tabs, blanks in front). -/
def word (lg : Nat) (arg : Text) : Text × Text :=
  let t := left arg
  let w := (t.take (lg - 1)).takeWhile (· ∉ bseps)
  (w, t.drop w.length)

/-- What is computed: all the equations or identities, or those with these names. -/
inductive Call where
  | all (s : Sample)
  | only (s : Sample) (names : List Text)
  deriving DecidableEq

/-- The periods at the beginning of the argument, b_model.cpp 95-106, b_idt.cpp 50-61: `none` for -1. -/
def periods (arg : Text) : Res (Option (Sample × Text)) :=
  let p := word 15 arg
  let q := word 15 p.2
  match Sample.ofStrings p.1 q.1 with
  | .ok s => .ok (some (s, q.2))
  | .err => .ok none
  | .ub => .ub

/-- `B_ModelSimulate`, b_model.cpp 84-120, with `B_ModelSimulateEqs` (45-76): `none` for -1. -/
def simulateArgs (W : Args.World) (arg : Text) : Res (Option Call) :=
  match periods arg with
  | .ok (some (s, r)) =>
    match Args.init W r with
    | .ok (some []) => .ok (some (.all s))
    | .ok (some ws) => .ok (some (.only s ws))
    | .ok none => .ok none
    | _ => .ub
  | .ok none => .ok none
  | _ => .ub

/-- `B_IdtExecute`, b_idt.cpp 41-75, with the choice in `B_IdtExecuteIdts` (93-118): a null pointer stands for all the identities. -/
def idtArgs (W : Args.World) (arg : Text) : Res (Option Call) :=
  match periods arg with
  | .ok (some (s, r)) =>
    match Args.init W r with
    | .ok (some []) => .ok (some (.all s))
    | .ok (some ws) => .ok (some (.only s ws))
    | .ok none => .ok (some (.all s))
    | _ => .ub
  | .ok none => .ok none
  | _ => .ub

/-- `B_ModelSimulateSCC`, b_model.cpp 299-344: the lists `pre`, `inter` and `post`; `known` are the lists of the workspace. -/
def sccArgs (W : Args.World) (known : Text → Bool) (arg : Text) : Res (Option (Sample × Text × Text × Text)) :=
  match periods arg with
  | .ok (some (s, r)) =>
    match Args.init W r with
    | .ok (some [a, b, c]) => if known a && known b && known c then .ok (some (s, a, b, c)) else .ok none
    | .ok _ => .ok none
    | _ => .ub
  | .ok none => .ok none
  | _ => .ub

/-- The arguments of `$ModelCalcSCC`. -/
structure Calc where
  tris : Int
  pre : Text
  inter : Text
  post : Text
  eqs : Text
  deriving DecidableEq

/-- `B_ModelCalcSCC`, b_model.cpp 255-289: an empty `eqs` stands for all the equations. -/
def calcArgs (arg : Text) : Res (Option Calc) :=
  let t := word 15 arg
  let p := word 20 t.2
  let i := word 20 p.2
  let o := word 20 i.2
  match Report.atoi t.1 with
  | none => .ub
  | some n => if p.1 = [] ∨ i.1 = [] ∨ o.1 = [] then .ok none else .ok (some ⟨max 0 n, p.1, i.1, o.1, trim o.2⟩)

/-- The parameters of the simulation, api/simulation/simulation.h 47-66. -/
structure Parms where
  eps : Rat
  relax : Rat
  maxit : Int
  sort : Nat
  start : Int
  debug : Nat
  passes : Int
  newtonDebug : Nat
  deriving DecidableEq

/-- `B_argpos`, api/b_args.cpp 209-217; a word of `SCR_vtoms` has a first character. -/
def argpos (opts : Text) (w : Text) : Nat :=
  match opts.findIdx? (· = toUpperC (w.headD '\x00')) with
  | some j => j
  | none => 0

/-- The choice of the order, b_model.cpp 149-151: `b` and `B` stand for `T`. -/
def sortOf (w : Text) : Nat := if w.headD '\x00' = 'b' ∨ w.headD '\x00' = 'B' then 1 else argpos ['C', 'T', 'N'] w

/-- `B_ModelSimulateParms`, b_model.cpp 133-164. -/
def parms (p : Parms) (arg : Text) : Res (Option Parms) :=
  match RepFn.vtoms bseps (arg.length + 1) arg with
  | .ok (e :: r :: m :: s :: v :: d :: rest) =>
    match Report.atoi m, (match rest with | [] => some p.passes | n :: _ => Report.atoi n) with
    | some m, some n =>
      .ok (some ⟨DataCmd.atof e, DataCmd.atof r, m, sortOf s, ((v.headD '\x00').toNat : Int) - 48, argpos ['N', 'Y'] d, n,
        match rest with | _ :: w :: _ => argpos ['N', 'Y'] w | _ => 0⟩)
    | _, _ => .ub
  | .ok _ => .ok none
  | _ => .ub

end Iode.ModelCmd
