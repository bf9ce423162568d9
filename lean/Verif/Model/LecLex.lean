import Verif.Model.Yy
import Verif.Model.Lec

/-!
# The tokens of a LEC formula

`L_get_token` (api/lec/l_token.cpp) on a text opened by `L_open_string`.  The state is the text still to be read, including
what `$LIST` and `'pattern'` have put in front of it, and the lists of the workspace, because `$LIST` changes them.

Parameters (`LexEnv`): the rounding of a decimal number to `float` (through `atof`), and `K_expand` on the variables of the
workspace.  `L_expand_super` is not set.
-/
namespace Iode
namespace Lec
open Yy

/-- `L_TABLE` (api/lec/l_token.h:26-122) in the order in which `L_open_all` puts it (api/lec/l_token.cpp:91-94).  A colon is
    no token of the grammar (`default` of `generate_lec_expression`, api/lec/l_compile.cpp:657-661). -/
def lecTable : Keys RTok :=
  [(['!'], .fun (.fn .not)), (['!', '='], .op .ne), (['('], .openp), (['(', ')'], .ocpar), ([')'], .closep),
   (['*'], .op .times), (['*', '*'], .op .exp), (['+'], .op .plus), (['+', ' '], .fun (.fn .uplus)), ([','], .comma),
   (['-'], .op .minus), (['-', ' '], .fun (.fn .uminus)), (['/'], .op .divide), ([':'], .bad), ([';'], .eoe),
   (['<'], .op .lt), (['<', '='], .op .le), (['<', '>'], .op .ne), (['='], .op .eq), (['>'], .op .gt),
   (['>', '='], .op .ge), (['['], .openb), ([']'], .closeb), (['^'], .op .exp), (['a', 'b', 's'], .fun (.fn .abs)),
   (['a', 'c', 'f'], .fun (.mtfn .acf)), (['a', 'c', 'o', 's'], .fun (.fn .acos)), (['a', 'n', 'd'], .op .and),
   (['a', 'p', 'p'], .fun (.mtfn .app)), (['a', 'p', 'p', 'd', 'i', 'f'], .fun (.mtfn .dapp)),
   (['a', 's', 'i', 'n'], .fun (.fn .asin)), (['a', 't', 'a', 'n'], .fun (.fn .atan)),
   (['c', 'e', 'i', 'l'], .fun (.fn .ceil)), (['c', 'o', 'r', 'r'], .fun (.mtfn .corr)),
   (['c', 'o', 's'], .fun (.fn .cos)), (['c', 'o', 's', 'h'], .fun (.fn .cosh)),
   (['c', 'o', 'v', 'a', 'r'], .fun (.mtfn .covar)), (['c', 'o', 'v', 'a', 'r', '0'], .fun (.mtfn .covar0)),
   (['d'], .fun (.tfn .diff)), (['d', 'a', 'p', 'p'], .fun (.mtfn .dapp)), (['d', 'i', 'v', '0'], .fun (.fn .div0)),
   (['d', 'l', 'a', 'g'], .fun (.tfn .dlag)), (['d', 'l', 'n'], .fun (.tfn .dln)), (['e'], .val .e),
   (['e', 'u', 'r', 'o'], .val .euro), (['e', 'x', 'p'], .fun (.fn .expn)),
   (['f', 'l', 'o', 'o', 'r'], .fun (.fn .floor)), (['g', 'a', 'm', 'm', 'a'], .fun (.fn .gamma)),
   (['g', 'r', 'a', 'n', 'd', 'o', 'm'], .fun (.fn .grandom)), (['g', 'r', 't'], .fun (.tfn .grt)),
   (['h', 'p'], .fun (.mtfn .hp)), (['h', 'p', 's', 't', 'd'], .fun (.mtfn .hpstd)), (['i'], .val .i),
   (['i', 'f'], .fun (.fn .if)), (['i', 'n', 'd', 'e', 'x'], .fun (.mtfn .index)),
   (['i', 'n', 't'], .fun (.fn .int)), (['i', 'n', 't', 'e', 'r', 'p', 'o', 'l'], .fun (.mtfn .interpol)),
   (['i', 's', 'a', 'n'], .fun (.fn .fnisan)), (['l'], .fun (.tfn .lag)),
   (['l', 'a', 's', 't', 'o', 'b', 's'], .fun (.tfn .lastobs)), (['l', 'c', 'o', 'u', 'n', 't'], .fun (.fn .lcount)),
   (['l', 'm', 'e', 'a', 'n'], .fun (.fn .lmean)), (['l', 'n'], .fun (.fn .ln)), (['l', 'o', 'g'], .fun (.fn .log)),
   (['l', 'p', 'r', 'o', 'd'], .fun (.fn .lprod)), (['l', 's', 't', 'd', 'e', 'r', 'r'], .fun (.fn .lstderr)),
   (['l', 's', 'u', 'm'], .fun (.fn .lsum)), (['m', 'a'], .fun (.tfn .mavg)),
   (['m', 'a', 'v', 'g'], .fun (.tfn .mavg)), (['m', 'a', 'x'], .fun (.fn .max)),
   (['m', 'e', 'a', 'n'], .fun (.tfn .mean)), (['m', 'i', 'n'], .fun (.fn .min)), (['n', 'o', 't'], .fun (.fn .not)),
   (['o', 'r'], .op .or), (['p', 'i'], .val .pi), (['p', 'r', 'o', 'd'], .fun (.tfn .prod)),
   (['r'], .fun (.tfn .rapp)), (['r', 'a', 'd'], .fun (.fn .rad)),
   (['r', 'a', 'n', 'd', 'o', 'm'], .fun (.fn .random)), (['r', 'o', 'u', 'n', 'd'], .fun (.fn .round)),
   (['s', 'i', 'g', 'n'], .fun (.fn .sign)), (['s', 'i', 'n'], .fun (.fn .sin)),
   (['s', 'i', 'n', 'h'], .fun (.fn .sinh)), (['s', 'q', 'r', 't'], .fun (.fn .sqrt)),
   (['s', 't', 'd', 'd', 'e', 'v'], .fun (.mtfn .stddev)), (['s', 't', 'd', 'e', 'r', 'r'], .fun (.tfn .stderr)),
   (['s', 'u', 'm'], .fun (.tfn .sum)), (['t'], .val .t), (['t', 'a', 'n'], .fun (.fn .tan)),
   (['t', 'a', 'n', 'h'], .fun (.fn .tanh)), (['u', 'r', 'a', 'n', 'd', 'o', 'm'], .fun (.fn .urandom)),
   (['v', 'a', 'r'], .fun (.mtfn .var)), (['v', 'm', 'a', 'x'], .fun (.tfn .vmax)),
   (['v', 'm', 'i', 'n'], .fun (.tfn .vmin))]

/-- What the reader of formulas does not compute itself. -/
structure LexEnv where
  /-- the `float` next to a decimal number -/
  rnd : Rat → Rat
  /-- `K_expand(VARIABLES, NULL, text, '*')` -/
  wild : Text → Option Text

/-- The text still to be read and the lists. -/
structure LexState where
  lists : List (Name × Text)
  text : Text

/-- Value of a sequence of digits (`sscanf("%ld")`, scr4/s_yread.c:693). -/
def natOf (ds : Text) : Nat := ds.foldl (fun n c => 10 * n + (c.toNat - 48)) 0

/-- Value of the exponent of a number: the digits behind `E` and a sign. -/
def expOf : Text → Int
  | [] => 0
  | c :: r =>
    if c = '-' then -(natOf (r.takeWhile isNum) : Int)
    else if c = '+' then natOf (r.takeWhile isNum)
    else natOf ((c :: r).takeWhile isNum)

/-- `atof` of a text accepted by `YY_read_num`, before rounding: digits, point, digits, `E`, exponent. -/
def atofVal (t : Text) : Rat :=
  let m := t.takeWhile (fun c => c ≠ 'E')
  let i := m.takeWhile (fun c => c ≠ '.')
  let f := (m.dropWhile (fun c => c ≠ '.')).drop 1
  let e := expOf ((t.dropWhile (fun c => c ≠ 'E')).drop 1) - f.length
  mkRat (natOf (i ++ f) * 10 ^ e.toNat) (10 ^ (-e).toNat)

/-- `SCR_replace(ptr, ";", ",")`, in place. -/
def commas (t : Text) : Text := t.map fun c => if c = ';' then ',' else c

/-- `L_expand` (api/lec/k_lec.cpp:104-117). -/
def findList (ls : List (Name × Text)) (w : Name) : Option Text :=
  (ls.find? fun l => l.1 = toKey .lists w).map (·.2)

/-- The list itself is changed by `L_macro` (api/lec/l_token.cpp:173-174, 191). -/
def setList (ls : List (Name × Text)) (w : Name) (t : Text) : List (Name × Text) :=
  ls.map fun l => if l.1 = toKey .lists w then (l.1, t) else l

/-- The year of a period (api/lec/l_token.cpp:286-287). -/
def fullYear (y : Nat) : Nat := if y < 50 then y + 2000 else if y < 200 then y + 1900 else y

/-- The second part of `L_get_int` (api/lec/l_token.cpp:280-292): the step, behind the letter of the periodicity. -/
def getStep (y : Nat) (c : Char) (nb : Int) (p : Raw × Text) : RTok × Text :=
  match p.1 with
  | .long d => if (natOf d : Int) ≤ nb ∧ natOf d ≠ 0 then (.cst (.period ⟨fullYear y, natOf d, toUpperC c⟩), p.2) else (.bad, p.2)
  | _ => (.bad, p.2)

/-- `L_get_int` (api/lec/l_token.cpp:265-293). -/
def getInt (d : Text) : Text → RTok × Text
  | [] => (.cst (.long (natOf d)), [])
  | c :: r =>
    match mapPeriodicities (toUpperC c) with
    | some nb => getStep (natOf d) c nb (read r)
    | none => (.cst (.long (natOf d)), c :: r)

/-- The names of a formula: scalars and variables (api/lec/l_token.cpp:380, 385-388). -/
def wordTok (w : Text) : RTok := if checkName .scalars w then .coef (w.take 20) else .var (w.take 20)

/-- `L_get_token` behind `L_lex` (api/lec/l_token.cpp:373-402); no token at the end of the text.  `SCR_atof`
    (scr4/s_atof.c:40-47) copies the number into an array of 255 bytes. -/
def token (E : LexEnv) (p : Lexed RTok × Text) : Res (Option RTok × Text) :=
  match p.1 with
  | .key k => .ok (some k, p.2)
  | .raw .eof => .ok (none, p.2)
  | .raw (.word w) => .ok (some (wordTok w), p.2)
  | .raw (.long d) => .ok (some (getInt d p.2).1, (getInt d p.2).2)
  | .raw (.double t) =>
    if t.length < 255 then .ok (some (.cst (.real (E.rnd (atofVal t)).num (E.rnd (atofVal t)).den)), p.2) else .ub
  | .raw _ => .ok (some .bad, p.2)

/-- `L_lex` and what follows it. -/
def lexTok (E : LexEnv) (ls : List (Name × Text)) (s : Text) : Res (Option RTok × LexState) :=
  (token E (lex lecTable (s.length + 1) s)).bind fun r => .ok (r.1, ⟨ls, r.2⟩)

/-- `L_macro` (api/lec/l_token.cpp:176-194) and the token behind it. -/
def listRef (E : LexEnv) (ls : List (Name × Text)) (p : Raw × Text) : Res (Option RTok × LexState) :=
  match p.1 with
  | .word w =>
    match findList ls w with
    | some t => lexTok E (setList ls w (commas t)) (commas t ++ p.2)
    | none => .ok (some .bad, ⟨ls, p.2⟩)
  | _ => .ok (some .bad, ⟨ls, p.2⟩)

/-- `L_read_string` (api/lec/l_token.cpp:204-225), `L_string` (305-316) and the token behind it. -/
def pattern (E : LexEnv) (ls : List (Name × Text)) (s : Text) : Res (Option RTok × LexState) :=
  match E.wild (s.takeWhile fun c => c ≠ '\'') with
  | some t => lexTok E ls (commas t ++ (s.dropWhile fun c => c ≠ '\'').drop 1)
  | none => .ok (some .bad, ⟨ls, (s.dropWhile fun c => c ≠ '\'').drop 1⟩)

/-- `L_get_token` (api/lec/l_token.cpp:347-403). -/
def getToken (E : LexEnv) (st : LexState) : Res (Option RTok × LexState) :=
  match skipSpaces st.text with
  | [] => lexTok E st.lists []
  | c :: r =>
    if c = '$' then listRef E st.lists (read r)
    else if c = '\'' then pattern E st.lists r
    else lexTok E st.lists (c :: r)

/-- What the reading of the tokens of a formula comes to: the tokens and the lists afterwards, undefined behaviour, or not
    yet finished. -/
inductive LexOut where
  | done (ts : List RTok) (ls : List (Name × Text))
  | ub
  | more
  deriving DecidableEq

/-- One more token in front. -/
def LexOut.cons (t : RTok) : LexOut → LexOut
  | done ts ls => done (t :: ts) ls
  | ub => ub
  | more => more

/-- All tokens that `generate_lec_expression` asks for (api/lec/l_compile.cpp:538-542): up to the end of the text, the first
    error or a semicolon; at most `n` of them. -/
def lexAll (E : LexEnv) : Nat → LexState → LexOut
  | 0, _ => .more
  | n + 1, st =>
    match getToken E st with
    | .ok (none, st') => .done [] st'.lists
    | .ok (some t, st') => if t = .bad ∨ t = .eoe then .done [t] st'.lists else (lexAll E n st').cons t
    | _ => .ub

/-- The text of a formula as opened by `L_open_string`. -/
def lexText (E : LexEnv) (ls : List (Name × Text)) (n : Nat) (s : Text) : LexOut :=
  lexAll E n ⟨ls, (File.mk [] 0 0 s).stream⟩

end Lec
end Iode
