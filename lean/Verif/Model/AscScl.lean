import Verif.Model.AscText

/-!
# Scalars in text form

The ascii format of scalars (api/ascii/k_ccscl.cpp): a name, a value, a relaxation parameter and a standard error.

Simplifications: those of Model/Ascii.lean (values are exact, zero has no sign); `load_asc` works on a cleared database without
subsets, the messages and the name of the file are left out.
-/
namespace Iode
namespace Asc
open Yy Printf

/-- `Scalar` (api/objs/scalars.h). -/
structure Scl where
  value : Dbl
  relax : Dbl
  std : Dbl
  deriving DecidableEq, Repr

/-- `read_scl` (api/ascii/k_ccscl.cpp:31-52) without the insertion.  The loop is that of `read_cmt`. -/
def readScl (st : St) : Res (Scl × St) :=
  (real noKeys st).bind fun a =>
    (real noKeys a.2).bind fun b =>
      (real noKeys b.2).bind fun c =>
        (skipText (c.2.text.length + 2) c.2).bind fun s =>
          .ok (⟨if isNumber a.1 then a.1 else ieee (9 / 10), if isNumber b.1 then b.1 else .num 1, c.1⟩, s)

/-- `kdb.set(name, scl)` in `read_scl` (api/ascii/k_ccscl.cpp:54-62): nothing is stored under an invalid name.  The name is cut
    (api/ascii/k_ccscl.cpp:132-133). -/
def putScl (w : Text) (v : Scl) (db : SMap Scl) : SMap Scl :=
  if checkName .scalars (toKey .scalars (w.take 20)) then SMap.insert (toKey .scalars (w.take 20)) v db else db

/-- The loop of `KDBScalars::load_asc` (api/ascii/k_ccscl.cpp:118-143). -/
def sclLoop : Nat → St → SMap Scl → Res (SMap Scl)
  | 0, _, _ => .err
  | n + 1, st, db => (lxs noKeys st).bind fun p =>
    match p.1 with
    | .raw .eof => .ok db
    | .raw (.word w) => (readScl p.2).bind fun r => sclLoop n r.2 (putScl w r.1 db)
    | _ => sclLoop n p.2 db

/-- `KDBScalars::load_asc` (api/ascii/k_ccscl.cpp:94-147) of a file with this content; the result is always `true`. -/
def loadScls (t : Text) : Res (SMap Scl) :=
  sclLoop ((expand 0 t).length + 2) ⟨.err, false, expand 0 t⟩ []

/-- One value of `print_scl` (api/ascii/k_ccscl.cpp:158-161). -/
def printScl1 (v : Dbl) : Text :=
  (if isNumber v then
    match v with
    | .num q => fmtG 14 q
    | _ => ['i', 'n', 'f']
  else ['n', 'a']) ++ [' ']

/-- `print_scl` (api/ascii/k_ccscl.cpp:156-172). -/
def printScl (v : Scl) : Text := [v.value, v.relax, v.std].flatMap printScl1

/-- One object of the loop of `save_asc` (api/ascii/k_ccscl.cpp:209-211). -/
def sclLine (e : Text × Scl) : Text := e.1 ++ ' ' :: (printScl e.2 ++ ['\n'])

/-- `KDBScalars::save_asc` (api/ascii/k_ccscl.cpp:184-225): the content of the file. -/
def saveScls (db : SMap Scl) : Text := db.flatMap sclLine

end Asc
end Iode
