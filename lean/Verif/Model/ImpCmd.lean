import Verif.Model.ModelCmd
import Verif.Model.Import
import Verif.Model.Dif

/-!
# Model of the commands that import variables and comments

Source: api/report/commands/b_xode.cpp, api/io/k_imain.cpp, api/io/import.h, api/b_args.cpp.

What the ascii formats and DIF read is in Import and Dif.

Simplifications
* the readers of the other formats are a parameter;
* the extension added to the name of the file that is saved, and the copy of the former file, are left out;
* of a trace, only its name and whether it is open are kept.
-/
namespace Iode.ImpCmd

open Iode.Args (Text)
open Iode.Imp (Format)
open Iode.Asc (VDb)
open Iode.ModelCmd (argpos)

/-- What a command can reach: the texts of the files, which files can be written, and the readers of the other formats. -/
structure Env where
  world : Args.World
  files : Text → Option Text
  canWrite : Text → Bool
  otherVars : Format → Option Text → Option Text → Res (Option VDb)
  otherCmts : Format → Nat → Option Text → Option Text → Res (Option (SMap Text))

/-- What a command changes: the files saved, the last one first, the traces opened, and the trace that is open. -/
structure State where
  vars : List (Text × VDb)
  cmts : List (Text × SMap Text)
  traces : List Text
  opened : Option Text
  deriving DecidableEq

/-- The formats in the order of `IodeImportFormat`, api/io/import.h 23-33. -/
def formats : List Format := [.ascii, .rotated, .dif, .bistel, .nis, .gem, .prn, .txt]

/-- `B_argpos("ARDDNGPT", args[0][0])`, b_xode.cpp 49 and 98, as an index of `import_variables` and `import_comments`. -/
def formatOf (w : Text) : Format := formats.getD (argpos ['A', 'R', 'D', 'D', 'N', 'G', 'P', 'T'] w) .ascii

/-- `B_argpos("EFD", args[4][0])`, b_xode.cpp 53. -/
def language (w : Text) : Nat := argpos ['E', 'F', 'D'] w

/-- `IMP_InterpretVar`, k_imain.cpp 75-200, for the format (api/io/import.h 211-221). -/
def readVars (E : Env) : Format → Option Text → Option Text → Res (Option VDb)
  | .ascii => Imp.interpretVar
  | .dif => Dif.interpretVar
  | f => E.otherVars f

/-- Whether `import_comments` has an entry, api/io/import.h 293-303. -/
def hasCmts : Format → Bool
  | .ascii | .bistel | .prn | .txt => true
  | _ => false

/-- `IMP_InterpretCmt`, k_imain.cpp 214-280, for the format. -/
def readCmts (E : Env) (f : Format) (lang : Nat) : Option Text → Option Text → Res (Option (SMap Text)) :=
  if f = .ascii then Imp.importCmt else E.otherCmts f lang

/-- The trace is opened, k_imain.cpp 300-306 and 348-354. -/
def openTrace (s : State) (trace : Text) : State :=
  if trace = [] then s else { s with traces := trace :: s.traces, opened := some trace }

/-- `W_close` when a trace was asked for, k_imain.cpp 322-323 and 381-382. -/
def closeTrace (s : State) (trace : Text) : State := if trace = [] then s else { s with opened := none }

/-- `IMP_RuleImportVar`, k_imain.cpp 341-385: what `save_binary` returns is not looked at, and the trace stays open when the periods are refused. -/
def ruleVar (E : Env) (s : State) (trace rule ode asc first last : Text) (f : Format) : Res (Int × State) :=
  let trace := Report.strip trace
  let rule := Report.strip rule
  let ode := Report.strip ode
  let asc := Report.strip asc
  let s := openTrace s trace
  (Imp.givenSample (Report.strip first) (Report.strip last)).bind fun b =>
    if b = false then .ok (-1, s)
    else (readVars E f (E.files rule) (E.files asc)).bind fun o =>
      match o with
      | some db => .ok (0, closeTrace (if E.canWrite ode then { s with vars := (ode, db) :: s.vars } else s) trace)
      | none => .ok (-1, closeTrace s trace)

/-- `IMP_RuleImportCmt`, k_imain.cpp 293-326. -/
def ruleCmt (E : Env) (s : State) (trace rule ode asc : Text) (f : Format) (lang : Nat) : Res (Int × State) :=
  let trace := Report.strip trace
  let rule := Report.strip rule
  let ode := Report.strip ode
  let asc := Report.strip asc
  let s := openTrace s trace
  if hasCmts f = false then .ok (-1, closeTrace s trace)
  else (readCmts E f lang (E.files rule) (E.files asc)).bind fun o =>
    match o with
    | some db => .ok (0, closeTrace (if E.canWrite ode then { s with cmts := (ode, db) :: s.cmts } else s) trace)
    | none => .ok (-1, closeTrace s trace)

/-- `B_FileImportVar`, b_xode.cpp 83-116. -/
def importVar (E : Env) (s : State) (arg : Text) : Res (Int × State) :=
  (Args.init E.world arg).bind fun o =>
    match o with
    | some (w :: rule :: infile :: outfile :: first :: last :: rest) =>
      ruleVar E s (match rest with | [t] => t | _ => []) rule outfile infile first last (formatOf w)
    | _ => .ok (-1, s)

/-- `B_FileImportCmt`, b_xode.cpp 34-66. -/
def importCmt (E : Env) (s : State) (arg : Text) : Res (Int × State) :=
  (Args.init E.world arg).bind fun o =>
    match o with
    | some (w :: rule :: infile :: outfile :: lang :: rest) =>
      ruleCmt E s (match rest with | [t] => t | _ => []) rule outfile infile (formatOf w) (language lang)
    | _ => .ok (-1, s)

end Iode.ImpCmd
