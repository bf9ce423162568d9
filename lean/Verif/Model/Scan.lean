import Verif.Model.Lists
import Verif.Model.LecLink
import Verif.Model.AscTbl

/-!
# Model of the search for the names used in formulas (api/objs/k_lst.cpp 37-197, `DataScan`)

The names in a compiled formula are given: `CLEC::objs` are the names of its tokens (`lnames`, Model/LecLink).  The databases of scalars and of variables
that collect the names have no sample, and the dummy variables no values: only the names matter.  Positions of objects are those of the
map.
-/
namespace Iode.Scan

open Iode.Lec

/-- A formula: missing (a cell without `idt`), not compiled (`clec` is null), or with these names. -/
inductive Form where
  | missing
  | bad
  | names (l : List Name)
  deriving DecidableEq

/-- The databases `exo` and `scal`. -/
structure Acc where
  exo : SMap Unit
  scal : SMap Unit
  deriving DecidableEq

/-- The loop of `K_clecscan`, k_lst.cpp 105-121.  A name that is not valid is an exception of `check_name` (`std::invalid_argument`). -/
def clecScan (has : Name → Bool) : List Name → Acc → Res Acc
  | [], a => .ok a
  | x :: xs, a =>
    if isCoef x then
      if checkName .scalars (toKey .scalars x) then clecScan has xs { a with scal := a.scal.insert (toKey .scalars x) () } else .err
    else if has x then clecScan has xs a
    else if checkName .variables (toKey .variables x) then clecScan has xs { a with exo := a.exo.insert (toKey .variables x) () }
    else .err

/-- The formulas of an object, one after the other.  `none`: the exception `std::runtime_error` of `get_compiled_lec`, tables.h 315-325. -/
def scanForms (has : Name → Bool) : List Form → Acc → Res (Option Acc)
  | [], a => .ok (some a)
  | .missing :: _, _ => .ok none
  | .bad :: fs, a => scanForms has fs a
  | .names l :: fs, a => (clecScan has l a).bind fun b => scanForms has fs b

/-- The loop of `K_scan` over the objects, k_lst.cpp 51-65. -/
def scanObjs {V : Type} (forms : V → List Form) (has : Name → Bool) : List (Name × V) → Acc → Res (Option Acc)
  | [], a => .ok (some a)
  | e :: es, a => (scanForms has (forms e.2) a).bind fun r =>
    match r with
    | none => .ok none
    | some b => scanObjs forms has es b

def exoName : Name := ['_', 'E', 'X', 'O']
def scalName : Name := ['_', 'S', 'C', 'A', 'L']

/-- `K_scan(kdb, "_EXO", "_SCAL")`, k_lst.cpp 37-82, and `B_DataScan`, b_data.cpp 1026-1090: the workspace of lists and whether 0 is
returned; the codes of `KL_lst` are not used.  `has` says which variables are left out. -/
def scan {V : Type} (forms : V → List Form) (has : Name → Bool) (db : SMap V) (st : Lists.Store) : Res Lists.Out :=
  if db.length = 0 then .ok ⟨st, false⟩
  else (scanObjs forms has db ⟨[], []⟩).bind fun r =>
    match r with
    | none => .ok ⟨st, false⟩
    | some a => (Lists.split st scalName a.scal.keys 200).bind fun o =>
      (Lists.split o.store exoName a.exo.keys 200).bind fun o => .ok ⟨o.store, true⟩

/-- The formula of an equation or of an identity, k_lst.cpp 136-142, 157-163: `names` gives the names when it compiles. -/
def one {V : Type} (names : V → Option (List Name)) (v : V) : List Form :=
  match names v with
  | none => [.bad]
  | some l => [.names l]

/-- `DataScanEqs` and `DataScanIdt`: the names of the database examined are left out, k_lst.cpp 113. -/
def scanEqs {V : Type} (ty : ObjType) (names : V → Option (List Name)) (db : SMap V) (st : Lists.Store) : Res Lists.Out :=
  scan (one names) (fun x => db.has (toKey ty x)) db st

/-- A cell of a table, k_lst.cpp 187-194. -/
def cellForm (names : List Char → Option (List Name)) (c : Asc.TCell) : Option Form :=
  match c.body with
  | .str _ => none
  | .lec none => some .missing
  | .lec (some t) => some (match names t with | none => .bad | some l => .names l)

/-- The cells of a table with a formula, in the lines with cells, k_lst.cpp 182-194. -/
def tableForms (names : List Char → Option (List Name)) (t : Asc.Tab) : List Form :=
  t.lines.flatMap fun l => if l.type ≠ 110 then [] else l.cells.filterMap (cellForm names)

/-- `DataScanTbl`: no name is left out, k_lst.cpp 181. -/
def scanTbls (names : List Char → Option (List Name)) (db : SMap Asc.Tab) (st : Lists.Store) : Res Lists.Out :=
  scan (tableForms names) (fun _ => false) db st

end Iode.Scan
