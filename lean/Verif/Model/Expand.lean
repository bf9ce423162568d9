import Verif.Model.Period
import Verif.Model.Res

/-!
# Model of the expansion of the lines of a report (api/report/engine/b_rep_engine.cpp RP_expand)

A line is a list of characters, without the final null character.  What the text calls for - macros, LEC expressions and commands between
braces, functions - is given by an environment `Env` over a state `σ`.  Lines are at most `RP_LINELENGTH` long and the memory suffices
(`RP_add` never fails).  Upper and lower case are those of the ASCII letters.
-/
namespace Iode.Expand

abbrev Text := List Char

/-- What the lines of a report depend on. -/
structure Env (σ : Type) where
  /-- `RP_MACRO->contains`, `RP_MACRO->get_macro` -/
  look : σ → Text → Option Text
  /-- the arguments of the report: first the name of the report (`RP_ARGV[-1]`), then `RP_ARGV[0]`, ... -/
  argv : σ → List Text
  /-- `RP_ARG0` -/
  arg0 : σ → Int
  /-- `RP_ALLOW_NOPARSING` -/
  noparse : σ → Bool
  /-- `RP_eval`, b_rep_engine.cpp 857-929: the text is empty if the value is missing -/
  eval : σ → Text → σ × Option Text
  /-- the function with this name and these arguments, `none` if there is none or if it returns nothing, b_rep_engine.cpp 1064-1078 -/
  fn : σ → Text → List Text → σ × Option Text

/-- `RP_extract`, b_rep_engine.cpp 570-583: the text up to the character, and the text behind it. -/
def extract (ch : Char) : Text → Option (Text × Text)
  | [] => none
  | c :: r => if c = ch then some ([], r) else (extract ch r).map fun p => (c :: p.1, p.2)

/-- `SCR_is_anum` or an underscore. -/
def wordCh (c : Char) : Bool := isDigitC c || decide (65 ≤ (toUpperC c).toNat ∧ (toUpperC c).toNat ≤ 90) || decide (c = '_')

/-- The loop of `RP_extractpar`, b_rep_engine.cpp 1005-1034: `nb` parentheses are open, `q` between double quotes.  The result ends before the
closing parenthesis. -/
def extractPar (nb : Nat) (q : Bool) : Text → Option (Text × Text)
  | [] => none
  | c :: r =>
    if c = '"' then (extractPar nb (!q) r).map fun p => (c :: p.1, p.2)
    else if q then (extractPar nb q r).map fun p => (c :: p.1, p.2)
    else if c = ')' ∧ nb ≤ 1 then some ([], r)
    else if c = ')' then (extractPar (nb - 1) q r).map fun p => (c :: p.1, p.2)
    else if c = '(' then (extractPar (nb + 1) q r).map fun p => (c :: p.1, p.2)
    else if nb = 0 ∧ !wordCh c ∧ c ≠ ' ' then none
    else (extractPar nb q r).map fun p => (c :: p.1, p.2)

/-- `SCR_vtomsq`, b_rep_utils.cpp 356-400: words between separators, or between quotes; `n` is more than the length of the text. -/
def splitN (seps : List Char) : Nat → Text → List Text
  | 0, _ => []
  | _, [] => []
  | n + 1, c :: r =>
    if c ∈ seps then splitN seps n r
    else if c = '"' then
      match r with
      | [] => []
      | _ =>
        match extract '"' r with
        | some (w, r) => w :: splitN seps n r
        | none => [r]
    else
      (c :: r).takeWhile (· ∉ seps) :: splitN seps n (((c :: r).dropWhile (· ∉ seps)).drop 1)

def split (seps : List Char) (t : Text) : List Text := splitN seps (t.length + 1) t

/-- `atoi` of a text that begins with a digit; `none` if the number is not an `int`. -/
def atoi (t : Text) : Option Nat :=
  let v := digitsVal 0 (t.takeWhile isDigitC)
  if v ≤ 2147483647 then some v else none

/-- The end of `RP_gmacro`, b_rep_engine.cpp 617-656: an argument of the report or a macro.  `none` is the null pointer. -/
def macroVal {σ : Type} (E : Env σ) (s : σ) (x : Text) : Res (Option Text) :=
  let n : Int := (E.argv s).length - 1
  match x with
  | [] => .ok (E.look s [])
  | c :: _ =>
    if isDigitC c then
      match atoi x with
      | none => .ub
      | some 0 => .ok (some (intToChars (n - E.arg0 s)))
      | some p =>
        let q := (p : Int) + E.arg0 s
        if q < 0 ∨ q > n then .ok none else .ok (E.argv s)[q.toNat]?
    else if c = '*' then
      if E.arg0 s < -1 ∨ E.arg0 s > n then .ub
      else .ok (some (List.intercalate [';'] ((E.argv s).drop (E.arg0 s + 1).toNat)))
    else .ok (E.look s x)

/-- The test of `RP_gmacro`, `RP_gcmd` and `RP_gfn`: does the text call for something, b_rep_engine.cpp 611-613, 676-678, 1097. -/
def calls (t : Text) : Bool := t.any fun c => c == '%' || c == '{' || c == '@'

/-- `%!x%`, `%#x%`, `%-x%`, b_rep_engine.cpp 1236-1242. -/
def change (flag : Option Char) (t : Text) : Text :=
  match flag with
  | some '-' => t.filter wordCh
  | some '!' => t.map toLowerC
  | some '#' => t.map toUpperC
  | _ => t

/-- The character behind the percent sign, b_rep_engine.cpp 1219-1226. -/
def flagOf : Text → Option Char × Text
  | c :: r => if c = '!' ∨ c = '#' ∨ c = '-' then (some c, r) else (none, c :: r)
  | [] => (none, [])

def put {σ : Type} (t : Text) (r : Res (σ × Text)) : Res (σ × Text) := r.bind fun p => .ok (p.1, t ++ p.2)

/-- `RP_expand`, b_rep_engine.cpp 1202-1326; `n` is more than the length of the text.

After a brace or a backquote that is not closed the next character is passed over too (`w` is the null pointer and `i` already points to it): at
the end of the line the code reads behind the null character. -/
def expandN {σ : Type} (E : Env σ) : Nat → σ → Text → Res (σ × Text)
  | 0, s, _ => .ok (s, [])
  | _, s, [] => .ok (s, [])
  | n + 1, s, c :: r =>
    let sub (s : σ) (w : Text) : Res (σ × Text) := if calls w then expandN E n s w else .ok (s, w)
    if c = '%' then
      if r.head? = some '%' then put ['%'] (expandN E n s r.tail)
      else
        let (flag, r1) := flagOf r
        match extract '%' r1 with
        | some (w, r2) =>
          (sub s w).bind fun p => (macroVal E p.1 p.2).bind fun v =>
            put (change flag (v.getD ('%' :: w ++ ['%']))) (expandN E n p.1 r2)
        | none => put [flag.getD '%'] (expandN E n s r1)
    else if c = '{' then
      if r.head? = some '{' then put ['{'] (expandN E n s r.tail)
      else match extract '}' r with
        | some (w, r2) =>
          (sub s w).bind fun p =>
            let v := E.eval p.1 p.2
            put (v.2.getD []) (expandN E n v.1 r2)
        | none => if r = [] then .ub else expandN E n s r.tail
    else if c = '@' then
      if r.head? = some '@' then put ['@'] (expandN E n s r.tail)
      else match extractPar 0 false r with
        | some (w, r2) =>
          (sub s w).bind fun p =>
            match split ['(', ','] p.2 with
            | [] => .ub
            | f :: args =>
              let v := E.fn p.1 f args
              match v.2 with
              | some t => put t (expandN E n v.1 r2)
              | none => put ['@'] (expandN E n v.1 r)
        | none => put ['@'] (expandN E n s r)
    else if c = '`' ∧ E.noparse s = true then
      if r.head? = some '`' then put ['`'] (expandN E n s r.tail)
      else match extract '`' r with
        | some (w, r2) => put w (expandN E n s r2)
        | none => if r = [] then .ub else expandN E n s r.tail
    else put [c] (expandN E n s r)

def expand {σ : Type} (E : Env σ) (s : σ) (t : Text) : Res (σ × Text) := expandN E (t.length + 1) s t

end Iode.Expand
