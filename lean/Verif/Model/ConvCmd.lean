import Verif.Model.Convert
import Verif.Model.ModelCmd

/-!
# Model of the commands that convert variables of a file between periodicities

Source: api/report/commands/b_htol.cpp (`B_htol`), b_ltoh.cpp (`B_ltoh`): how the arguments are read, the file is loaded and the method is chosen.
The conversions are in Convert and Spline.

Simplifications
* a file is what loading it gives: `load_binary` reads the variables asked for (C20), `load_asc` all of them (C44); no sample stands for a file that cannot be read;
* `failed` is not needed: the code is 0, or the end is reached with a null pointer.
-/
namespace Iode.ConvCmd

open Iode.Args (Text)
open Iode.Lec Iode.Idt Iode.Convert

variable {F : Type}

/-- What loading a file gives: sample and variables. -/
abbrev Loaded (F : Type) := Option Sample × SMap (List F)

/-- A file: `get_file_type_from_file` (api/objs/k_objfile.cpp:684-709) is negative for an ascii file and for one that does not exist. -/
inductive Source (F : Type) where
  | text (all : Loaded F)
  | binary (load : List Text → Loaded F)

/-- Loading, b_htol.cpp 124-128, b_ltoh.cpp 343-347. -/
def fetch (s : Source F) (names : List Text) : Loaded F :=
  match s with
  | .text all => all
  | .binary load => load names

/-- The part both commands share, b_htol.cpp 114-140 and b_ltoh.cpp 335-359: without names `to` is a null pointer at `to->clear()` (b_htol.cpp:197, b_ltoh.cpp:403); without a sample
of the file or of the workspace `HTOL_smpl` and `LTOH_smpl` read through a null pointer. -/
def onFile (W : Args.World) (files : Text → Source F) (ws : VarDb F) (file rest : Text) (conv : Sample → Sample → SMap (List F) → Res (VarDb F)) : Res (VarDb F) :=
  match Args.init W rest with
  | .ok (some (n :: ns)) =>
    match fetch (files file) (n :: ns), ws.smpl with
    | (some fs, vars), some vs => conv vs fs vars
    | _, _ => .ub
  | _ => .ub

/-- `B_htol`, b_htol.cpp 104-209. -/
def htolCmd (A : Arith F) (m : Method) (W : Args.World) (files : Text → Source F) (ws : VarDb F) (arg : Text) : Res (VarDb F) :=
  let p := ModelCmd.word 512 arg
  onFile W files ws p.1 p.2 fun vs fs vars => htol A m ws vs fs vars

/-- The conversion of one variable, b_ltoh.cpp 372-395: the first character chooses; `cs` are cubic splines. -/
def byLetter (A : Arith F) (cs : Kind → Nat → Nat → List F → Res (List F)) (k : Kind) (method : Text) (shift tn : Nat) : List F → Res (List F) :=
  match method.head? with
  | some 'C' => cs k shift tn
  | some 'S' => ltohStep A k shift tn
  | _ => ltohLin A k shift tn

/-- `B_ltoh`, b_ltoh.cpp 320-415; there are no blanks in `method`. -/
def ltohCmd (A : Arith F) (cs : Kind → Nat → Nat → List F → Res (List F)) (k : Kind) (W : Args.World) (files : Text → Source F) (ws : VarDb F) (arg : Text) :
    Res (VarDb F) :=
  let m := ModelCmd.word 80 arg
  let p := ModelCmd.word 512 m.2
  onFile W files ws p.1 p.2 fun vs fs vars =>
    match ltohSmpl fs vs with
    | .ok (ts, shift) => (ltohAll (byLetter A cs k m.1 shift.toNat ts.nb.toNat) vars).bind fun dst => merge A.na ws vs ts dst
    | _ => .ub

end Iode.ConvCmd
