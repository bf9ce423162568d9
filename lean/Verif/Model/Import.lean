import Verif.Model.Ascii
import Verif.Model.AscText
import Verif.Model.Grep
import Verif.Model.RepFn

/-!
# Importing variables and comments with rules

`IMP_RuleImport` (api/io/k_imain.cpp) reads variables or comments in an external format; a file of rules chooses the objects
and changes their names (api/io/k_rules.cpp).  Modelled formats: ascii (api/io/k_iasc.cpp) and rotated ascii
(api/io/k_irasc.cpp).

Simplifications
* a file is its text, `none` a file that cannot be opened; a byte is a `Char`, no character is 0 in a file of rules;
* the database is not written into the output file: it is the result; the trace of the names is left out;
* the texts of comments are bytes, they are not converted;
* the names of files given to the API contain no blanks and none of the characters `B_ainit_chk` treats.
-/
namespace Iode
namespace Imp
open Yy Asc Printf

/-! ## Rules -/

/-- A rule: the pattern (`IMP_pat`) and how the name is changed (`IMP_rule`). -/
abbrev Rule := Text × Text

/-- `fgets(buf, 256, fd)` (api/io/k_rules.cpp:61): up to 255 characters, a new line is the last one. -/
def fgets (s : Text) : Text :=
  (s.take 255).takeWhile (fun c => c ≠ '\n') ++ ((s.take 255).dropWhile (fun c => c ≠ '\n')).take 1

/-- The loop that cuts the end of the line (api/io/k_rules.cpp:62-66); without end it reads in front of `buf`. -/
def cutEnd (l : Text) : Res Text :=
  match l.reverse.dropWhile isSpace with
  | [] => .ub
  | c :: r => .ok (c :: r).reverse

/-- The loop of `IMP_readrule` (api/io/k_rules.cpp:60-76); `n` is more than the number of lines. -/
def ruleLoop : Nat → Text → Res (List Rule)
  | 0, _ => .err
  | n + 1, s =>
    if s = [] then .ok []
    else (cutEnd (fgets s)).bind fun b => (RepFn.vtoms [' ', '\t'] (b.length + 1) b).bind fun tbl =>
      (ruleLoop n (s.drop (fgets s).length)).bind fun rs =>
        match tbl with
        | [p, r] => .ok ((p, r) :: rs)
        | _ => .ok rs

/-- `IMP_readrule` (api/io/k_rules.cpp:44-93). -/
def readRules (file : Option Text) : Res (List Rule) :=
  (match file with
    | none => Res.ok []
    | some s => ruleLoop (s.length + 1) s).bind fun rs =>
  .ok (if rs = [] then [(['*'], List.replicate 20 '+')] else rs)

/-- `IMP_grep` (api/io/k_rules.cpp:107-116): the rule that is used. -/
def findRule : List Rule → Text → Res (Option Text)
  | [], _ => .ok none
  | (p, r) :: rs, name => (Grep.grep Grep.noCase '*' p name).bind fun b => if b then .ok (some r) else findRule rs name

/-- The loop of `IMP_change` (api/io/k_rules.cpp:145-165) from a position of the rule on; `name` is the rest of the name, `out` the
    characters written. -/
def changeLoop : Text → Text → Text → Text
  | [], _, out => out
  | c :: r, name, out =>
    if out.length < 20 then
      if c = '-' then
        match name with
        | [] => out
        | _ :: name => changeLoop r name out
      else if c = '+' then
        match name with
        | [] => out
        | x :: name => changeLoop r name (out ++ [x])
      else changeLoop r name (out ++ [c])
    else out

/-- `IMP_change` (api/io/k_rules.cpp:135-173); `none` is the result -1. -/
def change (rules : List Rule) (name : Text) : Res (Option Text) :=
  (findRule rules name).bind fun o => .ok (o.map fun r => changeLoop r name [])

/-! ## Variables in ascii -/

/-- `ImportObjsASCII_KEYS` and `ImportObjsRevertASCII_KEYS` (api/io/import.h:47-53). -/
def keys : Keys Nat := [("sample".toList, 1)]

/-- The values of one variable (api/io/k_iasc.cpp:75). -/
def vals : Nat → St → Res (List Dbl × St)
  | 0, st => .ok ([], st)
  | n + 1, st => (real keys st).bind fun p => (vals n p.2).bind fun r => .ok (p.1 :: r.1, r.2)

/-- `ImportObjsASCII::read_variable` (api/io/k_iasc.cpp:64-81): name and values, `none` at the end of the file; `fuel` is more than
    the number of elements. -/
def readVariable (dim : Nat) : Nat → St → Res (Option (Text × List Dbl) × St)
  | 0, _ => .err
  | n + 1, st => (lxs keys st).bind fun p =>
    match p.1 with
    | .raw .eof => .ok (none, p.2)
    | .raw (.word w) =>
      if w = ['n', 'a'] then readVariable dim n p.2
      else (vals dim p.2).bind fun r => .ok (some (w.take 79, r.1), r.2)
    | _ => readVariable dim n p.2

/-- `kdb->set(name, var)`: an exception when the name is not valid (api/io/k_imain.cpp:134-143, 255-269). -/
def put {α : Type} (ty : ObjType) (name : Text) (v : α) (db : SMap α) : Res (SMap α) :=
  if checkName ty (toKey ty name) then .ok (SMap.insert (toKey ty name) v db) else .err

/-- The loop of `IMP_InterpretVar` over variables (api/io/k_imain.cpp:122-144). -/
def varLoop (rules : List Rule) (dim : Nat) : Nat → St → SMap (List Dbl) → Res (SMap (List Dbl))
  | 0, _, _ => .err
  | n + 1, st, db => (readVariable dim (st.text.length + 2) st).bind fun p =>
    match p.1 with
    | none => .ok db
    | some (w, vs) => (change rules w).bind fun o =>
      match o with
      | none => varLoop rules dim n p.2 db
      | some name => (put .variables name vs db).bind fun db => varLoop rules dim n p.2 db

/-- `ImportObjsASCII::read_header` (api/io/k_iasc.cpp:40-51); `none` is -1. -/
def readHeader (st : St) : Res (Option Sample × St) :=
  (lxs keys st).bind fun p => if p.1 = .key 1 then readSmpl keys p.2 else .ok (none, p.2)

/-- `IMP_InterpretVar` (api/io/k_imain.cpp:75-200) for the ascii format.  After an error in the header the database is cleared
    through a null pointer. -/
def interpretVar (file : Option Text) (t : Option Text) : Res (Option VDb) :=
  (readRules file).bind fun rules =>
    match t with
    | none => .ok none
    | some t => (readHeader ⟨.err, false, expand 0 t⟩).bind fun p =>
      match p.1 with
      | none => .ub
      | some smp => (varLoop rules smp.nb.toNat (p.2.text.length + 2) p.2 []).bind fun db =>
        .ok (some ⟨if smp.nb = 0 then none else some smp, db⟩)

/-- The periods given by the user (api/io/k_imain.cpp:358-372): both must be there and be a sample. -/
def givenSample (first last : Text) : Res Bool :=
  if first = [] ∨ last = [] then .ok false
  else match (Period.parse first).bind fun p => (Period.parse last).bind fun q => Sample.ofPeriods p q with
    | .ok _ => .ok true
    | .err => .ok false
    | .ub => .ub

/-- `IMP_RuleImportVar` (api/io/k_imain.cpp:341-385) for the ascii format; `none` is the result -1. -/
def importVar (file : Option Text) (t : Option Text) (first last : Text) : Res (Option VDb) :=
  (givenSample first last).bind fun b => if b then interpretVar file t else .ok none

/-! ## Variables in rotated ascii -/

/-- The loop of `ImportObjsRevertASCII::read_header` (api/io/k_irasc.cpp:48-66): the names, `none` at the end of the file. -/
def tocLoop : Nat → St → List Text → Res (Option (List Text) × St)
  | 0, _, _ => .err
  | n + 1, st, toc => (lxs keys st).bind fun p =>
    match p.1 with
    | .raw .eof => .ok (none, p.2)
    | .raw (.word w) => tocLoop n p.2 (toc ++ [w])
    | _ => .ok (some toc, unread p.2)

/-- `KV_set` with `VAR_MODE_LEVEL` (api/objs/k_wsvar.cpp:300-360): nothing happens without the variable or the period. -/
def setAt (db : SMap (List Dbl)) (name : Text) (t : Nat) (v : Dbl) : SMap (List Dbl) :=
  match SMap.find (toKey .variables name) db with
  | none => db
  | some vs => if t < vs.length then SMap.insert (toKey .variables name) (vs.set t v) db else db

/-- The loop of `IMP_InterpretVar` over values (api/io/k_imain.cpp:148-182) with `ImportObjsRevertASCII::read_numerical_value`
    (api/io/k_irasc.cpp:84-98); `cv`, `cy` are `RASC_cv`, `RASC_cy`.  `none` means that more than `n` values are read. -/
def rotLoop (rules : List Rule) (dim : Nat) (toc : List Text) : Nat → St → Nat → Nat → Nat → SMap (List Dbl) →
    Res (Option (SMap (List Dbl)))
  | 0, _, _, _, _, _ => .ok none
  | n + 1, st, cv, cy, shift, db => (lxs keys st).bind fun p =>
    if p.1 = .raw .eof then .ok (some db)
    else
      let new : Bool := decide (toc.length ≤ cv)
      let cv := if new then 0 else cv
      let cy := if new then cy + 1 else cy
      let shift := if new then cy else shift
      match toc[cv]? with
      | none => .ub
      | some w =>
        if 256 ≤ w.length then .ub
        else (real keys (unread p.2)).bind fun v =>
          if dim < shift then rotLoop rules dim toc n v.2 (cv + 1) cy shift db
          else (change rules w).bind fun o =>
            match o with
            | none => rotLoop rules dim toc n v.2 (cv + 1) cy shift db
            | some name =>
              (if (SMap.find (toKey .variables name) db).isSome then put .variables name (List.replicate dim na) db
                else .ok db).bind fun db =>
              rotLoop rules dim toc n v.2 (cv + 1) cy shift (setAt db name shift v.1)

/-- `IMP_InterpretVar` (api/io/k_imain.cpp:75-200) for the rotated ascii format; `.err` when more than `n` values are read. -/
def interpretRot (n : Nat) (file : Option Text) (t : Option Text) : Res (Option VDb) :=
  (readRules file).bind fun rules =>
    match t with
    | none => .ok none
    | some t => (readHeader ⟨.err, false, expand 0 t⟩).bind fun p =>
      match p.1 with
      | none => .ub
      | some smp => (tocLoop (p.2.text.length + 2) p.2 []).bind fun q =>
        match q.1 with
        | none => .ub
        | some toc => (rotLoop rules smp.nb.toNat toc n q.2 0 0 0 []).bind fun o =>
          match o with
          | none => .err
          | some db => .ok (some ⟨if smp.nb = 0 then none else some smp, db⟩)

/-! ## Comments in ascii -/

/-- The loop of `IMP_InterpretCmt` (api/io/k_imain.cpp:240-270) with `ImportCommentsASCII::read_comment` (api/io/k_iasc.cpp:116-141):
    it ends at whatever is no name with a text. -/
def cmtLoop (rules : List Rule) : Nat → St → SMap Text → Res (SMap Text)
  | 0, _, _ => .err
  | n + 1, st, db => (lxs noKeys st).bind fun p =>
    match textOf p.1 with
    | none => .ok db
    | some w => (lxs noKeys p.2).bind fun q =>
      match textOf q.1 with
      | none => .ok db
      | some t => (change rules (w.take 79)).bind fun o =>
        match o with
        | none => cmtLoop rules n q.2 db
        | some name => (put .comments name (RepFn.stripText t) db).bind fun db => cmtLoop rules n q.2 db
where
  /-- The text of a word or a string. -/
  textOf : Lexed Nat → Option Text
    | .raw (.word w) => some w
    | .raw (.string t) => some (cstr t)
    | _ => none

/-- `IMP_RuleImportCmt` (api/io/k_imain.cpp:293-326) for the ascii format; `none` is the result -1. -/
def importCmt (file : Option Text) (t : Option Text) : Res (Option (SMap Text)) :=
  (readRules file).bind fun rules =>
    match t with
    | none => .ok none
    | some t => (cmtLoop rules ((expand 0 t).length + 2) ⟨.err, false, expand 0 t⟩ []).bind fun db => .ok (some db)

/-! ## The other formats and the API -/

/-- The entries of `import_variables` (api/io/import.h:210-220). -/
inductive Format where
  | ascii | rotated | dif | bistel | nis | gem | prn | txt
  deriving DecidableEq, Repr

/-- `impdef->read_variable_implemented` as `IMP_InterpretVar` reads it: the member of `ImportVarFromFile` (api/io/import.h:70-79).  It is
    set in the constructors of three formats (api/io/import.h:83-149) and inherited by Bistel; the other formats only
    initialise a member of their own with the same name (api/io/import.h:152-207), theirs is set to 0 by `make_unique`. -/
def readsVariables : Format → Bool
  | .ascii | .dif | .bistel => true
  | _ => false

/-- Whether a format has its own `read_numerical_value` (api/io/import.h:82-207); that of the base does nothing and the name is what
    was in memory. -/
def hasValues : Format → Bool
  | .rotated | .bistel | .txt => true
  | _ => false

/-- The first object `IMP_InterpretVar` reads (api/io/k_imain.cpp:117-152) is undefined when neither function is there. -/
def firstRead (f : Format) : Res Unit := if readsVariables f ∨ hasValues f then .ok () else .ub

/-- `import_var` with texts (cpp_api/KDB/kdb_global.cpp:55-92): `files` gives the text of a file, `canSave` tells whether
    `check_filepath` accepts the output file. -/
def apiImport (files : Text → Option Text) (canSave : Text → Bool) (input save first last rule : Text) : Res VDb :=
  if files rule = none then .err
  else if files input = none then .err
  else if canSave save = false then .err
  else (Period.parse first).bind fun p => (Period.parse last).bind fun q =>
    (importVar (files rule) (files input) p.toChars q.toChars).bind fun o =>
      match o with
      | none => .err
      | some db => .ok db

/-- `import_var` with periods (cpp_api/KDB/kdb_global.cpp:94-98). -/
def apiImportPeriods (files : Text → Option Text) (canSave : Text → Bool) (input save : Text) (first last : Period) (rule : Text) :
    Res VDb :=
  apiImport files canSave input rule save first.toChars last.toChars

end Imp
end Iode
