import Verif.Model.Yy
import Verif.Model.LecLex
import Verif.Model.Printf
import Verif.Model.Names
import Verif.Model.SMap
import Verif.Model.Sample

/-!
# Variables in text form

The ascii format of variables (api/ascii/k_ccvar.cpp): `save_asc` writes a file, `load_asc` reads it with the functions `YY`
(Model/Yy.lean) and the key words of tables, which the two formats share.

A database is the map of its names to the values of its variables, together with its sample.  `load_asc` works on a cleared
database without subsets.  `ask` is 0 (`load_asc`).  An exception is `.err`; `none` stands for the result `false`.
-/
namespace Iode
namespace Asc
open Yy Printf

/-! ## Key words -/

/-- `TABLE` (api/ascii/ascii.h:41-82) in the order in which `load_asc_type_ask` puts it (api/ascii/k_ccvar.cpp:178-182), with the
    values of the constants (api/objs/tables.h:19-67, `SMPL` api/ascii/ascii.h:35). -/
def tblKeys : Keys Nat :=
  [(['-'], 109), ("ALIGN".toList, 125), ("AXIS".toList, 124), ("BOLD".toList, 1), ("BOX".toList, 123), ("CENTER".toList, 8),
   ("DATE".toList, 116), ("DECIMAL".toList, 64), ("DIM".toList, 103), ("DIV".toList, 104), ("DUTCH".toList, 101),
   ("ENGLISH".toList, 100), ("FILES".toList, 105), ("FRENCH".toList, 102), ("GRBAR".toList, 129), ("GRLINE".toList, 128),
   ("GRSCATTER".toList, 130), ("ITALIC".toList, 2), ("LAXIS".toList, 126), ("LEC".toList, 114), ("LEFT".toList, 16),
   ("LINE".toList, 111), ("LINE BOLD".toList, 112), ("MODE".toList, 106), ("NORMAL".toList, 0), ("RAXIS".toList, 127),
   ("RIGHT".toList, 32), ("TITLE".toList, 113), ("UNDERLINE".toList, 4), ("XGRID".toList, 121), ("YGRID".toList, 122),
   ("YMAX".toList, 118), ("YMIN".toList, 117), ("ZMAX".toList, 120), ("ZMIN".toList, 119), ("sample".toList, 1),
   (['{'], 107), (['}'], 108)]

/-! ## Reading with `YY_unread` -/

/-- A `YYFILE`: the last element read (`yy_type` with `yy_text`, `yy_long`, `yy_double`), whether it is to be read again
    (`yy_reread`), and the characters still to be delivered. -/
structure St where
  typ : Raw
  back : Bool
  text : Text
  deriving DecidableEq

/-- `YY_unread` (scr4/s_yread.c:129-133). -/
def unread (st : St) : St := { st with back := true }

/-- The word behind `#` is in `yy_text`, the other members are those of the element before (scr4/s_yread.c:406-442). -/
def retype (w : Text) : Raw → Raw
  | .word _ => .word w
  | .string _ => .string w
  | .special _ => .special (w.headD (Char.ofNat 0))
  | .letter _ => .letter (w.headD (Char.ofNat 0))
  | r => r

/-- `YY_read` (scr4/s_yread.c:336-487).  `SCR_atof` (scr4/s_atof.c:40-47) copies a number into an array of 255 bytes. -/
def rd (st : St) : Res (Raw × St) :=
  if st.back then .ok (st.typ, { st with back := false })
  else
    match Yy.read st.text with
    | (.err, s) => .ok (.err, ⟨retype (((skipSpaces st.text).drop 1).takeWhile isWord) st.typ, false, s⟩)
    | (.double t, s) => if t.length < 255 then .ok (.double t, ⟨.double t, false, s⟩) else .ub
    | (r, s) => .ok (r, ⟨r, false, s⟩)

/-- `YY_lex` (scr4/s_ylex.c:75-100); `fuel` is more than the number of comments. -/
def lx {κ : Type} (tbl : Keys κ) : Nat → St → Res (Lexed κ × St)
  | 0, _ => .err
  | n + 1, st => (rd st).bind fun p =>
    if p.1 = .comment then lx tbl n p.2
    else .ok ((classify tbl (p.1, p.2.text)).1, { p.2 with text := (classify tbl (p.1, p.2.text)).2 })

/-- `YY_lex` with enough fuel. -/
def lxs {κ : Type} (tbl : Keys κ) (st : St) : Res (Lexed κ × St) := lx tbl (st.text.length + 2) st

/-! ## Values -/

/-- `IODE_NAN` (api/constants.h:123). -/
def na : Dbl := ieee (-(2 * 10 ^ 37))

/-- `IODE_IS_A_NUMBER` (api/constants.h:228). -/
def isNumber : Dbl → Bool
  | .num q => decide (roundD (-(10 ^ 37)) ≤ q)
  | .inf => true
  | .ninf => false
  | .nan => false

/-- `K_read_real` (api/utils/yy.cpp:24-62); `fuel` is more than the number of signs.  The text of the key 109
    (`TABLE_ASCII_BREAK`) is `-`. -/
def readReal (tbl : Keys Nat) : Nat → Bool → St → Res (Dbl × St)
  | 0, _, _ => .err
  | n + 1, neg, st => (lxs tbl st).bind fun p =>
    match p.1 with
    | .raw (.double t) => .ok (signed neg (ieee (Lec.atofVal t)), p.2)
    | .raw (.long d) => .ok (signed neg (.num (Lec.natOf d)), p.2)
    | .raw (.special c) =>
      if c = '-' then readReal tbl n true p.2
      else if c = '/' ∨ c = '.' then .ok (na, p.2)
      else .ok (na, unread p.2)
    | .raw (.word w) => if w = ['n', 'a'] then .ok (na, p.2) else .ok (na, unread p.2)
    | .raw _ => .ok (na, unread p.2)
    | .key k => if k = 109 then readReal tbl n true p.2 else .ok (na, unread p.2)

/-- `K_read_real` with enough fuel. -/
def real (tbl : Keys Nat) (st : St) : Res (Dbl × St) := readReal tbl (st.text.length + 2) false st

/-- The first loop of `read_vec` (api/ascii/k_ccvar.cpp:41-42). -/
def readVals : Nat → St → Res (List Dbl × St)
  | 0, st => .ok ([], st)
  | n + 1, st => (real tblKeys st).bind fun p => (readVals n p.2).bind fun r => .ok (p.1 :: r.1, r.2)

/-- The second loop of `read_vec` (api/ascii/k_ccvar.cpp:46-52): what is behind the values is skipped up to a word. -/
def skipVals : Nat → St → Res St
  | 0, _ => .err
  | n + 1, st => (lxs tblKeys st).bind fun p =>
    match p.1 with
    | .raw .eof => .ok (unread p.2)
    | .raw (.word w) => if w = ['n', 'a'] then skipVals n p.2 else .ok (unread p.2)
    | _ => skipVals n p.2

/-- `read_vec` (api/ascii/k_ccvar.cpp:28-66) without the insertion. -/
def readVec (nb : Nat) (st : St) : Res (List Dbl × St) :=
  (readVals nb st).bind fun p => (skipVals (p.2.text.length + 2) p.2).bind fun s => .ok (p.1, s)

/-! ## Sample -/

/-- `K_read_per` (api/utils/yy.cpp:131-154): a number, one character (`YY_EOF` is stored as 255), a number. -/
def readPer (tbl : Keys Nat) (st : St) : Res (Option Period × St) :=
  (lxs tbl st).bind fun p =>
    match p.1 with
    | .raw (.long d) =>
      (lxs tbl { p.2 with text := p.2.text.drop 1 }).bind fun r =>
        match r.1 with
        | .raw (.long e) => (Period.parse (d ++ p.2.text.headD (byteOf (-1)) :: e)).bind fun per => .ok (some per, r.2)
        | _ => .ok (none, r.2)
    | _ => .ok (none, p.2)

/-- `K_read_smpl` (api/utils/yy.cpp:166-199). -/
def readSmpl (tbl : Keys Nat) (st : St) : Res (Option Sample × St) :=
  (readPer tbl st).bind fun p =>
    match p.1 with
    | none => .ok (none, p.2)
    | some one =>
      (readPer tbl p.2).bind fun r =>
        match r.1 with
        | none => .ok (none, r.2)
        | some two =>
          (two.difference one).bind fun nb =>
            if nb < 0 then .ok (none, r.2) else (Sample.ofPeriods one two).bind fun s => .ok (some s, r.2)

/-! ## Loading -/

/-- `kdb.set(name, var)` in `read_vec` (api/ascii/k_ccvar.cpp:55-63): nothing is stored under an invalid name.  The name is cut
    (api/ascii/k_ccvar.cpp:133-134). -/
def putVar (w : Text) (v : List Dbl) (db : SMap (List Dbl)) : SMap (List Dbl) :=
  if checkName .variables (toKey .variables (w.take 20)) then SMap.insert (toKey .variables (w.take 20)) v db else db

/-- The loop of `load_yy` (api/ascii/k_ccvar.cpp:116-143).  `reserve` of a negative number throws. -/
def varLoop (nb : Int) : Nat → St → SMap (List Dbl) → Res (Option (SMap (List Dbl)))
  | 0, _, _ => .err
  | n + 1, st, db => (lxs tblKeys st).bind fun p =>
    match p.1 with
    | .raw .eof => .ok (some db)
    | .raw (.word w) =>
      if nb = 0 then .ok none
      else if nb < 0 then .err
      else (readVec nb.toNat p.2).bind fun r => varLoop nb n r.2 (putVar w r.1 db)
    | _ => varLoop nb n p.2 db

/-- A database of variables: its sample, if any, and the values. -/
structure VDb where
  smp : Option Sample
  vars : SMap (List Dbl)
  deriving DecidableEq, Repr

/-- `load_yy` (api/ascii/k_ccvar.cpp:80-146) on the characters of the file (no element was read, `yy_type` is 0); `set_sample` does nothing with a sample without
    periods (api/objs/k_wsvar.cpp:936-940). -/
def loadYy (s : Text) : Res (Option VDb) :=
  (lxs tblKeys ⟨.err, false, s⟩).bind fun p =>
    if p.1 = .key 1 then
      (readSmpl tblKeys p.2).bind fun r =>
        match r.1 with
        | none => .ok none
        | some smp => (varLoop smp.nb (r.2.text.length + 2) r.2 []).bind fun o =>
          .ok (o.map fun vs => ⟨if smp.nb = 0 then none else some smp, vs⟩)
    else .ok none

/-- `load_asc` (api/ascii/k_ccvar.cpp:160-219) of a file with this content. -/
def loadVars (t : Text) : Res (Option VDb) := loadYy (expand 0 t)

/-! ## Saving -/

/-- `print_val` (api/ascii/k_ccvar.cpp:229-239) with `REALD`. -/
def printVal (v : Dbl) : Text :=
  (if isNumber v then
    match v with
    | .num q => fmtG 15 q
    | _ => ['i', 'n', 'f']
  else ['n', 'a']) ++ [' ']

/-- One line of the loop of `save_asc` (api/ascii/k_ccvar.cpp:284-287). -/
def varLine (e : Text × List Dbl) : Text := e.1 ++ ' ' :: (e.2.flatMap printVal ++ ['\n'])

/-- `save_asc` (api/ascii/k_ccvar.cpp:249-302): the content of the file. -/
def saveVars (smp : Sample) (vars : SMap (List Dbl)) : Text :=
  ['s', 'a', 'm', 'p', 'l', 'e', ' '] ++ (smp.start.toChars ++ (' ' :: (smp.stop.toChars ++ ('\n' :: vars.flatMap varLine))))

end Asc
end Iode
