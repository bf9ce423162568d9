import Verif.Model.Import
import Verif.Model.Idt

/-!
# Exporting variables and comments

`EXP_RuleExport` (api/io/k_emain.cpp) writes variables, with the names the rules of api/io/k_rules.cpp give them, in an external
format.  Modelled formats: CSV, rotated CSV (api/io/k_ecsv.cpp) and DIF (api/io/k_edif.cpp).  `save_csv`
(api/ascii/k_ccvar.cpp) writes variables in CSV without rules.

Simplifications
* a file is its text; the names of the files and the trace of the names are left out;
* the texts of comments are bytes, they are not converted (`utf8_to_oem`);
* texts given by the user contain no character 0.
-/
namespace Iode
namespace Exp
open Yy Asc Printf Imp

/-! ## Values and cells -/

/-- `EXP_SEP` and `EXP_NA`. -/
structure Conf where
  sep : Text
  na : Text
  deriving DecidableEq, Repr

/-- One of the texts of `EXP_set` (api/io/k_emain.cpp:116-127): 10 characters at most (scr4/s_stlcpy.c:25-38), without the blanks at the
    end. -/
def setting (given usual : Text) : Text :=
  if RepFn.stripText (given.take 10) = [] then usual else RepFn.stripText (given.take 10)

/-- `EXP_set` (api/io/k_emain.cpp:116-127). -/
def conf (na sep : Text) : Conf := ⟨setting sep [' '], setting na ['#', 'N', '/', 'A']⟩

/-- `write_value` (api/io/k_emain.cpp:138-145) with `SCR_fmt_dbl` (scr4/s_stfmtd.c:44-97, the format is `%20.8lg`: the text is never
    longer than 17 characters) and `SCR_sqz`. -/
def value (cf : Conf) (v : Dbl) : Text :=
  if isNumber v then
    match v with
    | .num q => if q ≤ roundD (-(10 ^ 37)) then ['-', '-'] else fmtG 8 q
    | _ => ['i', 'n', 'f']
  else cf.na

/-- `write_pre_post` (api/io/k_emain.cpp:157-175). -/
def prePost (pre post src : Text) : Text := pre ++ (RepFn.stripText src ++ post)

/-- `write_separator` (api/io/k_emain.cpp:186-189). -/
def withSep (cf : Conf) (src : Text) : Text := prePost [] cf.sep src

/-- `get_variable_value` for all periods (api/io/k_emain.cpp:236-237): reading behind the end of the values is undefined. -/
def vec (f : Text → Text) (cf : Conf) : Nat → List Dbl → Res Text
  | 0, _ => .ok []
  | _ + 1, [] => .ub
  | n + 1, v :: vs => (vec f cf n vs).bind fun r => .ok (f (value cf v) ++ r)

/-- The texts of the periods of a sample (api/io/k_ecsv.cpp:64-69, k_edif.cpp:77-81). -/
def periods (smp : Sample) : Res (List Text) :=
  (Sample.listLoop smp.start 0 smp.nb.toNat).bind fun ps => .ok (ps.map Period.toChars)

/-- The variables that fit a rule: name, new name and values (api/io/k_emain.cpp:226-230, 286-290). -/
def chosen (rules : List Rule) : List (Text × List Dbl) → Res (List (Text × Text × List Dbl))
  | [] => .ok []
  | (w, vs) :: es => (change rules w).bind fun o => (chosen rules es).bind fun r =>
    match o with
    | none => .ok r
    | some n => .ok ((w, n, vs) :: r)

/-- The comment of a variable (api/io/k_ecsv.cpp:108-121, k_edif.cpp:96-107). -/
def comment (cmts : SMap Text) (w : Text) : Text := (SMap.find (toKey .comments w) cmts).getD []

/-! ## CSV -/

/-- `ExportObjsCSV::write_header` (api/io/k_ecsv.cpp:50-73). -/
def csvHeader (cf : Conf) (ps : List Text) : Text :=
  ['c', 'o', 'd', 'e'] ++ (cf.sep ++ (['c', 'o', 'm', 'm', 'e', 'n', 't'] ++ (cf.sep ++ (ps.flatMap (· ++ cf.sep) ++ ['\n']))))

/-- One round of the loop of `EXP_Ws` (api/io/k_emain.cpp:232-239) with the functions of CSV (api/io/k_ecsv.cpp:96-167). -/
def csvLine (cf : Conf) (cmts : SMap Text) (dim : Nat) (e : Text × Text × List Dbl) : Res Text :=
  (vec (withSep cf) cf dim e.2.2).bind fun v =>
    .ok (withSep cf e.2.1 ++ (' ' :: (withSep cf ((comment cmts e.1).filter (· ≠ '\n')) ++ (' ' :: (v ++ ['\n'])))))

/-- The texts of several objects. -/
def texts {α : Type} (f : α → Res Text) : List α → Res Text
  | [] => .ok []
  | e :: es => (f e).bind fun t => (texts f es).bind fun r => .ok (t ++ r)

/-- `EXP_Ws` (api/io/k_emain.cpp:208-257) for CSV. -/
def csv (cf : Conf) (rules : List Rule) (smp : Sample) (vars : SMap (List Dbl)) (cmts : SMap Text) : Res Text :=
  (periods smp).bind fun ps => (chosen rules vars).bind fun es =>
  (texts (csvLine cf cmts smp.nb.toNat) es).bind fun t => .ok (csvHeader cf ps ++ t)

/-! ## Rotated CSV -/

/-- The value of one period (api/io/k_ecsv.cpp:191-203) and the blank behind it (205-214). -/
def rotCell (cf : Conf) (j : Nat) (e : Text × Text × List Dbl) : Res Text :=
  match e.2.2[j]? with
  | none => .ub
  | some v => .ok (withSep cf (value cf v) ++ [' '])

/-- The line of one period (api/io/k_emain.cpp:299-316). -/
def rotLine (cf : Conf) (es : List (Text × Text × List Dbl)) (e : Nat × Text) : Res Text :=
  (texts (rotCell cf e.1) es).bind fun t => .ok (e.2 ++ (cf.sep ++ (' ' :: (t ++ ['\n']))))

/-- `EXP_Rev_Ws` (api/io/k_emain.cpp:264-326) for rotated CSV. -/
def rotated (cf : Conf) (rules : List Rule) (smp : Sample) (vars : SMap (List Dbl)) : Res Text :=
  (chosen rules vars).bind fun es => (periods smp).bind fun ps =>
  (texts (rotLine cf es) ((List.range ps.length).zip ps)).bind fun t =>
    .ok (cf.sep ++ (' ' :: (es.flatMap (fun e => withSep cf e.2.1 ++ [' ']) ++ ('\n' :: t))))

/-! ## DIF -/

/-- A cell with a text (api/io/k_edif.cpp:80, 91-107). -/
def difText (t : Text) : Text := prePost ['1', ',', '0', '\n', '"'] ['"', '\n'] t

/-- A cell with a value (api/io/k_edif.cpp:109-127). -/
def difValue (t : Text) : Text := prePost ['0', ','] ['\n', 'V', '\n'] t

/-- The beginning of a line of cells. -/
def bot : Text := "-1,0\nBOT\n".toList

/-- `ExportObjsDIF::write_header` (api/io/k_edif.cpp:65-83); `dim` is the number of periods, `nb` the number of variables. -/
def difHeader (dim nb : Nat) (ps : List Text) : Text :=
  "TABLE\n0,1\n\"\"\nVECTORS\n0,".toList ++ (natToChars (dim + 2) ++ ("\n\"\"\nTUPLES\n0,".toList ++ (natToChars (nb + 1) ++
    ("\n\"\"\nDATA\n0,0\n\"\"\n".toList ++ (bot ++ ("1,0\n\"CODE\"\n1,0\n\"COMMENT\"\n".toList ++ ps.flatMap fun p => "1,0\n\"".toList ++ (p ++ "\"\n".toList)))))))

/-- One round of the loop of `EXP_Ws` (api/io/k_emain.cpp:232-239) with the functions of DIF (api/io/k_edif.cpp:91-133).  Without
    periods the null pointer `vec` is written. -/
def difLine (cmts : SMap Text) (cf : Conf) (dim : Nat) (e : Text × Text × List Dbl) : Res Text :=
  if dim = 0 then .ub
  else (vec difValue cf dim e.2.2).bind fun v =>
    .ok (bot ++ (difText e.2.1 ++ (difText (comment cmts e.1) ++ v)))

/-- `EXP_Ws` (api/io/k_emain.cpp:208-257) for DIF. -/
def dif (cf : Conf) (rules : List Rule) (smp : Sample) (vars : SMap (List Dbl)) (cmts : SMap Text) : Res Text :=
  (periods smp).bind fun ps => (chosen rules vars).bind fun es =>
  (texts (difLine cmts cf smp.nb.toNat) es).bind fun t =>
    .ok (difHeader smp.nb.toNat vars.length ps ++ (t ++ "-1,0\nEOD\n".toList))

/-! ## The export -/

/-- The formats that are modelled (api/io/export.h). -/
inductive Fmt where
  | csv
  | rotated
  | dif
  deriving DecidableEq, Repr

/-- The result: 0 or -1, and the text of the file. -/
abbrev Out := Bool × Option Text

/-- `EXP_Ws` and `EXP_Rev_Ws` (api/io/k_emain.cpp:208-326); `can` tells whether the file can be created.  Only CSV looks whether it
    is; without a sample `get_sample()` is null. -/
def write (can : Bool) (cf : Conf) (fmt : Fmt) (file : Option Text) (db : VDb) (cmts : SMap Text) : Res Out :=
  (readRules file).bind fun rules =>
    if fmt ≠ .dif ∧ can = false then .ok (false, none)
    else match db.smp with
      | none => .ub
      | some smp =>
        (match fmt with
          | .csv => csv cf rules smp db.vars cmts
          | .rotated => rotated cf rules smp db.vars
          | .dif => dif cf rules smp db.vars cmts).bind fun t => .ok (true, if can then some t else none)

/-- The sample given by the user (api/io/k_emain.cpp:362-377): `none` when one of the periods is missing. -/
def given (first last : Text) : Res (Option Sample) :=
  if RepFn.stripText first = [] ∨ RepFn.stripText last = [] then .ok none
  else ((Period.parse (RepFn.stripText first)).bind fun p => (Period.parse (RepFn.stripText last)).bind fun q => Sample.ofPeriods p q).bind
    fun s => .ok (some s)

/-- `set_sample` (api/objs/k_wsvar.cpp:936-1003) on a database that is no subset.  Without a sample the values would all be missing
    (such a database has no variables). -/
def setSample (new : Sample) (db : VDb) : Res VDb :=
  if new.nb = 0 then .ok db
  else match db.smp with
    | none => .ok ⟨some new, db.vars.map fun e => (e.1, List.replicate new.nb.toNat Asc.na)⟩
    | some old => (Idt.resizeAll Asc.na old new db.vars).bind fun m => .ok ⟨some new, m⟩

/-- `EXP_RuleExport` (api/io/k_emain.cpp:346-413); `vfile` and `cfile` are the databases in the files, `none` when no file is given,
    `some none` when it cannot be loaded.  Periods that make no sample are an error (-1), a sample without periods in common
    with the file is an exception. -/
def ruleExport (can : Bool) (fmt : Fmt) (rule : Option Text) (vfile : Option (Option VDb)) (cfile : Option (Option (SMap Text)))
    (first last na sep : Text) : Res Out :=
  match given first last with
  | .ub => .ub
  | .err => .ok (false, none)
  | .ok smp =>
    let cmts := (cfile.bind id).getD []
    match vfile with
    | none => write can (conf na sep) fmt rule ⟨none, []⟩ cmts
    | some none => .ok (false, none)
    | some (some db) =>
      (match smp with
        | none => Res.ok db
        | some s => setSample s db).bind fun db => write can (conf na sep) fmt rule db cmts

/-- `export_as` (cpp_api/KDB/kdb_global.cpp:100-170): periods that make no sample are an exception, a sample is copied to a null
    pointer; the rule file must exist, files that cannot be loaded are exceptions, the result is not reported. -/
def exportAs (can : Bool) (fmt : Fmt) (rule : Option Text) (vfile : Option (Option VDb)) (cfile : Option (Option (SMap Text)))
    (first last na sep : Text) : Res (Option Text) :=
  if first ≠ [] ∧ last ≠ [] then
    match (Period.parse first).bind fun p => (Period.parse last).bind fun q => Sample.ofPeriods p q with
    | .ok _ => .ub
    | .err => .err
    | .ub => .ub
  else if cfile = some none ∨ vfile = some none ∨ rule = none then .err
  else (write can (conf na sep) fmt rule ((vfile.bind id).getD ⟨none, []⟩) ((cfile.bind id).getD [])).bind fun o => .ok o.2

/-! ## `save_csv` -/

/-- The settings of `save_csv` (api/ascii/k_ccvar.cpp:10-14); `none` is a null pointer. -/
structure Csv where
  sep : Option Text := none
  dec : Option Text := none
  nan : Option Text := none
  axes : Option Text := none
  nbdec : Int := 15
  deriving DecidableEq, Repr

/-- The number of digits of the format (api/ascii/k_ccvar.cpp:345-348): `%lg` has 6, `%.0lg` has 1. -/
def Csv.digits (c : Csv) : Nat := if c.nbdec < 0 ∨ 15 < c.nbdec then 6 else if c.nbdec = 0 then 1 else c.nbdec.toNat

/-- One value (api/ascii/k_ccvar.cpp:415-421). -/
def csvValue (d : Nat) (dec nan : Text) (v : Dbl) : Text :=
  if isNumber v then
    let t := match v with
      | .num q => fmtG d q
      | _ => ['i', 'n', 'f']
    if dec.head? = some '.' then t else t.flatMap fun c => if c = '.' then dec else [c]
  else nan

/-- The values of one variable (api/ascii/k_ccvar.cpp:412-423): always from the first one. -/
def csvVals (d : Nat) (sep dec nan : Text) : Nat → List Dbl → Res Text
  | 0, _ => .ok []
  | _ + 1, [] => .ub
  | n + 1, v :: vs => (csvVals d sep dec nan n vs).bind fun r => .ok (sep ++ (csvValue d dec nan v ++ r))

/-- The header (api/ascii/k_ccvar.cpp:382-394). -/
def saveHeader (sep axes : Text) (smp : Sample) : Res Text :=
  (if smp.start.periodicity = 'Y' then Res.ok ((List.range smp.nb.toNat).map fun i => intToChars (smp.start.year + (i : Nat)))
    else periods smp).bind fun ps => .ok (axes ++ ('\\' :: ("time".toList ++ (ps.flatMap (sep ++ ·) ++ ['\n']))))

/-- One line (api/ascii/k_ccvar.cpp:407-426); an unknown name has no values. -/
def saveLine (d : Nat) (sep dec nan : Text) (smp : Sample) (vars : SMap (List Dbl)) (w : Text) : Res Text :=
  match SMap.find (toKey .variables w) vars with
  | none => .ok (w ++ ['\n'])
  | some vs => (csvVals d sep dec nan smp.nb.toNat vs).bind fun t => .ok (w ++ (t ++ ['\n']))

/-- The names (api/ascii/k_ccvar.cpp:396-404), a `std::set`. -/
def saveNames (list : List Text) (vars : SMap (List Dbl)) : List Text :=
  if list = [] then SMap.keys vars
  else SMap.keys (list.foldl (fun m w => SMap.insert (w.map toUpperC) () m) ([] : SMap Unit))

/-- `save_csv` (api/ascii/k_ccvar.cpp:325-432): `none` is the result `false`.  Without a separator or a decimal point the function
    writes in a literal string. -/
def saveCsv (c : Csv) (list : List Text) (smpl : Option Sample) (db : VDb) : Res (Option Text) :=
  match c.sep, c.dec with
  | some (s0 :: s), some (d0 :: d) =>
    match smpl.or db.smp with
    | none => .ok none
    | some smp =>
      let axes := if (c.axes.getD []) = [] then ['v', 'a', 'r'] else c.axes.getD []
      (saveHeader (s0 :: s) axes smp).bind fun h =>
      (texts (saveLine c.digits (s0 :: s) (d0 :: d) (c.nan.getD []) smp db.vars) (saveNames list db.vars)).bind fun t => .ok (some (h ++ t))
  | _, _ => .ub

end Exp
end Iode
