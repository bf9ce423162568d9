import Verif.Model.Import
import Verif.Model.AscEqs

/-!
# Importing variables from DIF files

`ImportObjsDIF` (api/io/k_idif.cpp) reads the cells of a DIF file: the header tells the periods, each further row is a variable.
`IMP_RuleImportVar` (api/io/k_imain.cpp) is that of Model/Import.lean.

Simplifications
* those of Model/Import.lean and Model/Yy.lean;
* memory is always there; that `close` frees with `SW_nfree` what was made with `new` (api/io/k_idif.cpp:164, 225) is left out;
* the text of an element behind `#` is the one `retype` gives.
-/
namespace Iode
namespace Dif
open Yy Asc Printf Imp

/-- `ImportObjsDIF_KEYS` (api/io/import.h:51-60) in the order in which `IMP_InterpretVar` puts it (api/io/k_imain.cpp:93-97), with the
    values of api/io/dif.h. -/
def keys : Keys Nat :=
  [([','], 6), ("BOT".toList, 5), ("DATA".toList, 4), ("EOD".toList, 1), ("TABLE".toList, 2), ("TUPLES".toList, 8), (['V'], 7),
   ("VECTORS".toList, 3)]

/-- `dif_skip_to` (api/io/k_idif.cpp:38-48): false at the end of the file and at `EOD`; `fuel` is more than the number of elements. -/
def skipTo (k : Nat) : Nat → St → Res (Bool × St)
  | 0, _ => .err
  | n + 1, st => (lxs keys st).bind fun p =>
    if p.1 = .raw .eof ∨ p.1 = .key 1 then .ok (false, p.2)
    else if p.1 = .key k then .ok (true, p.2)
    else skipTo k n p.2

/-- `dif_skip_to` with enough fuel. -/
def skip (k : Nat) (st : St) : Res (Bool × St) := skipTo k (st.text.length + 2) st

/-- `K_read_long` (api/utils/yy.cpp:71-102). -/
def long (st : St) : Res (Int × St) := readLong keys (st.text.length + 2) false st

/-- `yy_text` of the last element; at the end of the file it is that of the element before, a comma where it is used here. -/
def textOf : Raw → Text
  | .word w => w
  | .long d => d
  | .double t => t
  | .string t => cstr t
  | .special c => [c]
  | .letter c => [c]
  | _ => [',']

/-- What `dif_read_cell` leaves in its output: a new value, a null pointer (only for texts), or what was there. -/
inductive Cell (α : Type) where
  | got (a : α)
  | null
  | same
  deriving DecidableEq, Repr

/-- `dif_read_cell(yy, &str, NULL)` (api/io/k_idif.cpp:59-99).  The result 0 or -1 is not kept: -1 comes with `null` or `same`, and
    `same` is treated like -1 by those who look at the result (api/io/k_idif.cpp:202-203). -/
def strCell (st : St) : Res (Cell Text × St) :=
  (long st).bind fun r =>
    if r.1 = 0 then (skip 6 r.2).bind fun q =>
      if q.1 then (lxs keys q.2).bind fun a => (lxs keys a.2).bind fun b => .ok (.got (textOf a.2.typ), b.2)
      else .ok (.same, q.2)
    else if r.1 = 1 then (skip 6 r.2).bind fun q =>
      if q.1 then (long q.2).bind fun a => (lxs keys a.2).bind fun b =>
        .ok (match b.1 with
          | .raw (.string t) => .got (cstr t)
          | _ => .null, b.2)
      else .ok (.same, q.2)
    else if r.1 = -1 then (skip 5 r.2).bind fun q => .ok (.same, q.2)
    else .ok (.same, r.2)

/-- `dif_read_cell(yy, NULL, &value)` (api/io/k_idif.cpp:59-99): `none` is the result -1.  A text is written through the null pointer
    `str`. -/
def numCell (st : St) : Res (Option (Cell Dbl) × St) :=
  (long st).bind fun r =>
    if r.1 = 0 then (skip 6 r.2).bind fun q =>
      if q.1 then (real keys q.2).bind fun a => (lxs keys a.2).bind fun b => .ok (some (.got a.1), b.2)
      else .ok (none, q.2)
    else if r.1 = 1 then (skip 6 r.2).bind fun q => if q.1 then .ub else .ok (none, q.2)
    else if r.1 = -1 then (skip 5 r.2).bind fun q => .ok (if q.1 then some .same else none, q.2)
    else .ok (none, r.2)

/-- The conversion of a `double` into an `int`. -/
def toInt : Dbl → Res Int
  | .num q =>
    let n := if 0 ≤ q then q.floor else -((-q).floor)
    if -2147483648 ≤ n ∧ n ≤ 2147483647 then .ok n else .ub
  | _ => .ub

/-- The loop over the periods of the header (api/io/k_idif.cpp:130-160) behind the first one; `freq` is `DIF_freq`.  The result -1 is
    `none`.  In `if(per->periodicity= DIF_freq)` the periodicity is assigned: what counts is whether `DIF_freq` is 0. -/
def headLoop (freq : Char) : Nat → Period → Period → St → Res (Option (Period × Period) × St)
  | 0, per1, per2, st => .ok (some (per1, per2), st)
  | n + 1, per1, per2, st => (strCell st).bind fun c =>
    match c.1 with
    | .got t => (Period.parse t).bind fun p =>
      if freq.toNat ≠ 0 then .ok (none, c.2)
      else ({ p with periodicity := freq } : Period).difference per1 |>.bind fun d1 =>
        (per2.difference { p with periodicity := freq }).bind fun d2 =>
          headLoop freq n (if d1 < 0 then { p with periodicity := freq } else per1)
            (if d2 < 0 then { p with periodicity := freq } else per2) c.2
    | _ => .ub

/-- The periods of the header and what follows (api/io/k_idif.cpp:130-184); `none` is -1.  Without periods the sample of two new
    `Period` objects cannot have `ny` periods. -/
def headPeriods (ny : Int) (st : St) : Res (Option Sample × St) :=
  if ny ≤ 0 then .ok (none, st)
  else (strCell st).bind fun c =>
    match c.1 with
    | .got t => (Period.parse t).bind fun p => (headLoop p.periodicity (ny - 1).toNat p p c.2).bind fun q =>
      match q.1 with
      | none => .ok (none, q.2)
      | some (per1, per2) =>
        match Sample.ofPeriods per1 per2 with
        | .ub => .ub
        | .err => .ok (none, q.2)
        | .ok smp => if ny ≠ smp.nb then .ok (none, q.2)
          else (skip 5 q.2).bind fun b => .ok (if b.1 then some smp else none, b.2)
    | _ => .ub

/-- The first cell of the row of periods (api/io/k_idif.cpp:128-129): a pointer that was not set is freed. -/
def corner (st : St) : Res St :=
  (strCell st).bind fun c =>
    match c.1 with
    | .same => .ub
    | _ => .ok c.2

/-- `ImportObjsDIF::read_header` (api/io/k_idif.cpp:109-184); `none` is -1. -/
def readHeader (st : St) : Res (Option Sample × St) :=
  (lxs keys st).bind fun p => if p.1 ≠ .key 2 then .ok (none, p.2)
  else (skip 3 p.2).bind fun p => if p.1 = false then .ok (none, p.2)
  else (numCell p.2).bind fun p =>
    match p.1 with
    | none => .ok (none, p.2)
    | some (.got v) => (toInt v).bind fun ny =>
      (skip 8 p.2).bind fun p => if p.1 = false then .ok (none, p.2)
      else (numCell p.2).bind fun p =>
        match p.1 with
        | none => .ok (none, p.2)
        | some c => (toInt (match c with | .got v => v | _ => v)).bind fun _ =>
          (skip 5 p.2).bind fun p => if p.1 = false then .ok (none, p.2)
          else (corner p.2).bind fun s => headPeriods (ny - 1) s
    | some _ => .ub

/-- The values of a row (api/io/k_idif.cpp:208-212); `prev` is the content of `value`, `none` the result -1. -/
def vals : Nat → Option Dbl → St → Res (Option (List Dbl) × St)
  | 0, _, st => .ok (some [], st)
  | n + 1, prev, st => (numCell st).bind fun p =>
    match p.1 with
    | none => .ok (none, p.2)
    | some c =>
      match (match c with | .got v => some v | _ => prev) with
      | none => .ub
      | some v => (vals n (some v) p.2).bind fun r => .ok (r.1.map (v :: ·), r.2)

/-- `ImportObjsDIF::read_variable` (api/io/k_idif.cpp:196-216); `none` is -1. -/
def readVariable (dim : Nat) (st : St) : Res (Option (Text × List Dbl) × St) :=
  (strCell st).bind fun c =>
    match c.1 with
    | .got w => (vals dim none c.2).bind fun r =>
      match r.1 with
      | none => .ok (none, r.2)
      | some vs => (skip 5 r.2).bind fun b => .ok (some (w.take 79, vs), b.2)
    | _ => .ok (none, c.2)

/-- The loop of `IMP_InterpretVar` over variables (api/io/k_imain.cpp:122-144); `fuel` is more than the number of rows. -/
def varLoop (rules : List Rule) (dim : Nat) : Nat → St → SMap (List Dbl) → Res (SMap (List Dbl))
  | 0, _, _ => .err
  | n + 1, st, db => (readVariable dim st).bind fun p =>
    match p.1 with
    | none => .ok db
    | some (w, vs) => (change rules w).bind fun o =>
      match o with
      | none => varLoop rules dim n p.2 db
      | some name => (put .variables name vs db).bind fun db => varLoop rules dim n p.2 db

/-- `IMP_InterpretVar` (api/io/k_imain.cpp:75-200) for DIF.  After an error in the header the database is cleared through a null
    pointer. -/
def interpretVar (file : Option Text) (t : Option Text) : Res (Option VDb) :=
  (readRules file).bind fun rules =>
    match t with
    | none => .ok none
    | some t => (readHeader ⟨.err, false, expand 0 t⟩).bind fun p =>
      match p.1 with
      | none => .ub
      | some smp => (varLoop rules smp.nb.toNat (p.2.text.length + 2) p.2 []).bind fun db =>
        .ok (some ⟨if smp.nb = 0 then none else some smp, db⟩)

/-- `IMP_RuleImportVar` (api/io/k_imain.cpp:341-385) for DIF; `none` is the result -1. -/
def importVar (file : Option Text) (t : Option Text) (first last : Text) : Res (Option VDb) :=
  (givenSample first last).bind fun b => if b then interpretVar file t else .ok none

end Dif
end Iode
