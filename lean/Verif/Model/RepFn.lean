import Verif.Model.Expand
import Verif.Model.Names

/-!
# Model of the functions of reports that work on texts (api/report/engine/b_rep_fns.cpp)

The arguments of a function are those that `SCR_vtomsq` cuts (`Expand.split`).  `none` is the null pointer: the call stays in the line.
Texts have fewer than 2^31 characters and no character 0.  Upper and lower case are those of the ASCII letters.  `SCR_malloc` gives memory
filled with 0 (scr4/s_allc.c 208).
-/
namespace Iode.RepFn

abbrev Text := List Char

/-- The characters that `atol` passes over. -/
def isBlank (c : Char) : Bool := c.toNat = 32 || (9 ≤ c.toNat && c.toNat ≤ 13)

/-- `atol`: blanks, a sign, digits; undefined if the number is not a `long` of 64 bits. -/
def atol (t : Text) : Res Int :=
  let t := t.dropWhile isBlank
  let v : Int := match t with
    | '-' :: r => -(digitsVal 0 (r.takeWhile isDigitC) : Int)
    | '+' :: r => digitsVal 0 (r.takeWhile isDigitC)
    | r => digitsVal 0 (r.takeWhile isDigitC)
  if -9223372036854775808 ≤ v ∧ v ≤ 9223372036854775807 then .ok v else .ub

/-- The conversion of a `long` to an `int` of 32 bits. -/
def toInt (v : Int) : Int := (v + 2147483648) % 4294967296 - 2147483648

/-- `(int)atol(t)`. -/
def number (t : Text) : Res Int := (atol t).bind fun v => .ok (toInt v)

/-- `RPF_take`, b_rep_fns.cpp 167-203.  `n + 1` and `-n` may overflow. -/
def take (args : List Text) : Res (Option Text) :=
  match args with
  | [a, s] => (number a).bind fun n =>
    if n > 0 then
      if n = 2147483647 then .ub
      else if n ≥ s.length then .ok (some (s ++ List.replicate (n - s.length).toNat ' '))
      else .ok (some (s.take n.toNat))
    else if n ≤ -2147483647 then .ub
    else if -n ≥ s.length then .ok (some (List.replicate (-n - s.length).toNat ' ' ++ s))
    else .ok (some (s.drop (s.length - (-n)).toNat))
  | _ => .ok none

/-- `RPF_drop`, b_rep_fns.cpp 227-251. -/
def drop (args : List Text) : Res (Option Text) :=
  match args with
  | [a, s] => (number a).bind fun n =>
    if s.length = 0 then .ok none
    else if n > 0 then
      if n ≥ s.length then .ok (some []) else .ok (some (s.drop n.toNat))
    else if n = -2147483648 then .ub
    else if -n ≥ s.length then .ok (some []) else .ok (some (s.take (s.length - (-n)).toNat))
  | _ => .ok none

/-- `U_pos`, scr4/s_stupos.c 12-20, of a character that is not 0. -/
def upos (c : Char) : Text → Option Nat
  | [] => none
  | d :: r => if d = c then some 0 else (upos c r).map (· + 1)

/-- The loop of `U_index`, scr4/s_stuind.c 28-34: `f` bounds the number of steps. -/
def uindexLoop (str sstr : Text) : Nat → Nat → Res (Option Nat)
  | 0, _ => .err
  | f + 1, i =>
    match sstr with
    | [] => .ok none
    | c :: _ =>
      match upos c (str.drop i) with
      | none => .ok none
      | some pos =>
        if pos + i + sstr.length > str.length then .ok none
        else if (str.drop (pos + i)).take sstr.length = sstr then .ok (some (i + pos))
        else uindexLoop str sstr f (i + (pos + 1))

/-- `U_index`, scr4/s_stuind.c 14-37; no character of the text is the 0 with which an empty text begins. -/
def uindex (str sstr : Text) : Res (Option Nat) :=
  if str.length < sstr.length then .ok none else uindexLoop str sstr (str.length + 1) 0

/-- `SCR_replace_len`, scr4/s_strepl.c 79-99, without `chars`. -/
def replaceLen (txt repl by_ : Text) : Nat → Nat → Int → Res Int
  | 0, _, _ => .err
  | f + 1, shift, add => (uindex (txt.drop shift) repl).bind fun r =>
    match r with
    | none => .ok add
    | some pos => replaceLen txt repl by_ f (shift + pos + repl.length) (add + (by_.length - repl.length))

/-- `SCR_replace_gnl2`, scr4/s_strepl.c 6-27, for a shorter text: what is written never passes what is read.  `memcmp` stops at the 0. -/
def shrink (repl by_ : Text) : Nat → Text → Res Text
  | 0, _ => .err
  | f + 1, txt2 =>
    if txt2.take repl.length = repl then (shrink repl by_ f (txt2.drop repl.length)).bind fun r => .ok (by_ ++ r)
    else match txt2 with
      | [] => .ok []
      | c :: r => (shrink repl by_ f r).bind fun r => .ok (c :: r)

/-- The loop of `SCR_replace_gnl`, scr4/s_strepl.c 44-67, without `chars`, in a buffer for `cap` characters. -/
def grow (repl by_ : Text) (cap : Int) : Nat → Text → Nat → Res Text
  | 0, _, _ => .err
  | f + 1, txt, shift => (uindex (txt.drop shift) repl).bind fun r =>
    match r with
    | none => .ok txt
    | some pos =>
      let txt' := txt.take (shift + pos) ++ by_ ++ txt.drop (shift + pos + repl.length)
      if (txt'.length : Int) > cap then .ub else grow repl by_ cap f txt' (shift + pos + by_.length)

/-- `SCR_areplace`, scr4/s_strepl.c 102-138. -/
def areplace (txt repl by_ : Text) : Res Text :=
  (replaceLen txt repl by_ (txt.length + 1) 0 txt.length).bind fun len =>
    if repl.length > by_.length then shrink repl by_ (txt.length + 1) txt
    else grow repl by_ (max len txt.length) (txt.length + 1) txt 0

/-- `RPF_replace`, b_rep_fns.cpp 268-275. -/
def replace (args : List Text) : Res (Option Text) :=
  match args with
  | [a, b, c] => (areplace a b c).bind fun t => .ok (some t)
  | _ => .ok none

/-- `RPF_equal`, b_rep_fns.cpp 290-303. -/
def equal (args : List Text) : Res (Option Text) :=
  match args with
  | [a, b] => .ok (some (if a = b then ['1'] else ['0']))
  | _ => .ok (some ['0'])

/-- `SCR_mtov`, scr4/s_stmtov.c 31-100. -/
def mtov (sep : Char) : List Text → Text
  | [] => []
  | [w] => w
  | w :: ws => w ++ sep :: mtov sep ws

/-- `SCR_sqz`, scr4/s_stsqz.c 46-57. -/
def sqzText : Text → Text
  | [] => []
  | c :: r => if c ≠ ' ' then c :: sqzText r else sqzText r

/-- `SCR_strip`, scr4/s_ststrp.c 24-37: the position from the end. -/
def stripText (t : Text) : Text := (t.reverse.dropWhile fun c => decide (c.toNat ≤ 32)).reverse

/-- `RPF_upper`, `RPF_lower`, `RPF_sqz`, `RPF_strip`, b_rep_fns.cpp 316-380. -/
def upper (args : List Text) : Res (Option Text) := .ok (some ((mtov ' ' args).map toUpperC))
def lower (args : List Text) : Res (Option Text) := .ok (some ((mtov ' ' args).map toLowerC))
def sqz (args : List Text) : Res (Option Text) := .ok (some (sqzText (mtov ' ' args)))
def strip (args : List Text) : Res (Option Text) := .ok (some (stripText (mtov ' ' args)))

/-- The loop of `SCR_fmt_long`, scr4/s_stfmtl.c 41-58, from the end of the format (reversed here) with the digits still to place (reversed). -/
def fmtLoop : Text → Text → Text
  | [], _ => []
  | c :: f, ds =>
    if c = '9' ∨ c = 'x' ∨ c = 'X' then
      match ds with
      | d :: ds => d :: fmtLoop f ds
      | [] => ' ' :: fmtLoop f []
    else if c = '0' then
      match ds with
      | d :: ds => (if d = ' ' then '0' else d) :: fmtLoop f ds
      | [] => '0' :: fmtLoop f []
    else c :: fmtLoop f ds

/-- `SCR_fmt_long(buf, fmt, l)` with the buffer of 512 bytes of `RPF_fmtint`; `l` is an `unsigned long` of 64 bits. -/
def fmtLong (fmt : Text) (l : Int) : Res Text :=
  if fmt.length ≥ 512 then .ub
  else .ok (fmtLoop fmt.reverse (natToChars (l % 18446744073709551616).toNat).reverse).reverse

/-- `RPF_fmtint`, b_rep_fns.cpp 403-417. -/
def fmt (args : List Text) : Res (Option Text) :=
  match args with
  | [] => .ok (some [])
  | [a, f] => (atol a).bind fun l => (fmtLong f l).bind fun t => .ok (some t)
  | a :: _ => (atol a).bind fun l => (fmtLong ['9', '9', '9', '9', '9', '9'] l).bind fun t => .ok (some t)

/-- `RPF_count`, b_rep_fns.cpp 445-454. -/
def count (args : List Text) : Res (Option Text) := .ok (some (natToChars args.length))

/-- `RPF_index`, b_rep_fns.cpp 471-480. -/
def index (args : List Text) : Res (Option Text) :=
  match args with
  | [] => .ok (some [])
  | [_] => .ok (some [])
  | a :: l => (number a).bind fun pos =>
    if pos > l.length ∨ pos < 1 then .ok (some []) else .ok l[pos.toNat - 1]?

/-- `RPF_void`, b_rep_fns.cpp 491-494. -/
def void (_ : List Text) : Res (Option Text) := .ok (some [])

/-- `SCR_vtoms`, scr4/s_stvtom.c 39-58: `f` bounds the number of steps. -/
def vtoms (seps : Text) : Nat → Text → Res (List Text)
  | 0, _ => .err
  | f + 1, str =>
    match str.dropWhile (· ∈ seps) with
    | [] => .ok []
    | c :: r =>
      match (c :: r).dropWhile (· ∉ seps) with
      | [] => .ok [(c :: r).takeWhile (· ∉ seps)]
      | _ :: rest => (vtoms seps f rest).bind fun ws => .ok ((c :: r).takeWhile (· ∉ seps) :: ws)

/-- The elements of the arguments: joined with the first separator and cut again. -/
def elements (seps : Text) (args : List Text) : Res (List Text) :=
  let arg := mtov (seps.headD ';') args
  vtoms seps (arg.length + 1) arg

/-- `RPF_vtake`, b_rep_fns.cpp 1789-1818, with the separators `RP_VSEPS`. -/
def vtake (seps : Text) (args : List Text) : Res (Option Text) :=
  if args.length < 1 then .ok (some [])
  else (elements seps args).bind fun l =>
    match l with
    | [] => .ub
    | [_] => .ok (some [])
    | a :: l => (number a).bind fun n =>
      if n > 0 then .ok (some (mtov (seps.headD ';') (l.take (min (l.length : Int) n).toNat)))
      else if n = -2147483648 then .ub
      else .ok (some (mtov (seps.headD ';') (l.drop (l.length - min (l.length : Int) (-n)).toNat)))

/-- `RPF_vdrop`, b_rep_fns.cpp 1837-1866. -/
def vdrop (seps : Text) (args : List Text) : Res (Option Text) :=
  if args.length < 1 then .ok (some [])
  else (elements seps args).bind fun l =>
    match l with
    | [] => .ub
    | [_] => .ok (some [])
    | a :: l => (number a).bind fun n =>
      if n < 0 then .ok (some (mtov (seps.headD ';') (l.take (max ((l.length : Int) + n) 0).toNat)))
      else .ok (some (mtov (seps.headD ';') (l.drop (min (l.length : Int) n).toNat)))

/-- `RPF_vcount`, b_rep_fns.cpp 1882-1894. -/
def vcount (seps : Text) (args : List Text) : Res (Option Text) :=
  (elements seps args).bind fun l => .ok (some (natToChars l.length))

/-- The default of `RP_vseps`, api/report/engine/b_rep_cmds.cpp 46-52. -/
def vseps (t : Text) : Text := if t.length = 0 then [';', ',', ' '] else t

/-- The inner loop of `RPF_vsliste1`, b_rep_fns.cpp 1214-1239: `scal` asks for scalars. -/
def listNames (scal : Bool) : List Name → List Name → List Name
  | [], tbl => tbl
  | x :: xs, tbl =>
    if checkName .scalars x ≠ scal then listNames scal xs tbl
    else if x ∈ tbl then listNames scal xs tbl
    else listNames scal xs (tbl ++ [x])

/-- The loop of `RPF_vsliste` over the names of equations; `eqs` gives the names in the compiled equation. -/
def listEqs (eqs : Name → Option (List Name)) (scal : Bool) : List Text → List Name → List Name
  | [], tbl => tbl
  | a :: as, tbl =>
    match eqs (toKey .equations a) with
    | none => listEqs eqs scal as tbl
    | some xs => listEqs eqs scal as (listNames scal xs tbl)

/-- `RPF_vliste` and `RPF_sliste`, b_rep_fns.cpp 1249-1276, 1314-1331. -/
def vsliste (eqs : Name → Option (List Name)) (scal : Bool) (args : List Text) : Res (Option Text) :=
  if args.length < 1 then .ok none else .ok (some (mtov ';' (listEqs eqs scal args [])))

/-- What the functions read: the separators and the equations. -/
structure World where
  seps : Text
  eqs : Name → Option (List Name)

/-- `RP_fneval`, api/report/engine/b_rep_engine.cpp 1053-1079, with the functions above (`RP_FNS`, b_rep_syntax.cpp 304-330).  Nothing for another name. -/
def call (W : World) (name : Text) (args : List Text) : Res (Option Text) :=
  let f := toLower (trim name)
  if f = "take".toList then take args
  else if f = "drop".toList then drop args
  else if f = "replace".toList then replace args
  else if f = "equal".toList then equal args
  else if f = "upper".toList then upper args
  else if f = "lower".toList then lower args
  else if f = "sqz".toList then sqz args
  else if f = "strip".toList then strip args
  else if f = "fmt".toList then fmt args
  else if f = "count".toList then count args
  else if f = "index".toList then index args
  else if f = "void".toList then void args
  else if f = "vtake".toList then vtake W.seps args
  else if f = "vdrop".toList then vdrop W.seps args
  else if f = "vcount".toList then vcount W.seps args
  else if f = "vliste".toList then vsliste W.eqs false args
  else if f = "sliste".toList then vsliste W.eqs true args
  else .ok none

end Iode.RepFn
