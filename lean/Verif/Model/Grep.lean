import Verif.Model.Res
import Verif.Model.Names

/-!
# Matching names with patterns

Models `SCR_grep_1` (scr4/s_stgrep.c:60-142), `KDB::grep` restricted to names and `KDB::expand`
(api/objs/k_grep.cpp:52-86, 180-212).

Strings are C strings without their final NUL. `up` is the function used to compare characters: `SCR_upper_char` when
`ecase` is 0, the identity otherwise; `anum` is `SCR_is_anum(c) || c == '_'`. Neither needs any property here.
-/
namespace Iode.Grep

/-- How characters are compared and classed. -/
structure Env where
  up : Char → Char
  anum : Char → Bool

/-- `SCR_is_anum(ch) || ch == '_'` on ASCII (scr4/s_stisal.c). -/
def asciiAnum (c : Char) : Bool := isDigitC c || isUpperC (toUpperC c) || c == '_'

/-- `ecase == 0`. -/
def noCase : Env := ⟨toUpperC, asciiAnum⟩

/-- The loop over the positions a `*` can end at (scr4/s_stgrep.c:133-136): only positions before the end of the string;
    `m s j` is the recursive call on the rest `s`, `j` being passed as `nbeg`. -/
def starLoop (m : List Char → Nat → Res Bool) : List Char → Nat → Res Bool
  | [], _ => .ok false
  | c :: s, j =>
    match m (c :: s) j with
    | .ok true => .ok true
    | .ok false => starLoop m s (j + 1)
    | r => r

/-- `rc = SCR_grep_1(first); if(rc == 0) return 0; if(!nbeg && j == 0) rc = SCR_grep_1(second); return rc;`
    (scr4/s_stgrep.c:112-117, 121-126). -/
def orAtStart (first : Res Bool) (start : Bool) (second : Res Bool) : Res Bool :=
  match first with
  | .ok true => .ok true
  | .ok false => if start then second else .ok false
  | r => r

/-- `SCR_grep_1` (scr4/s_stgrep.c:61-139). `j` is the number of characters already consumed in this call, `nbeg` the
    argument; the arguments are the rest of the pattern and the rest of the string. A true result is the code 0.
    `&` lets the terminating NUL through and the reading goes on behind it: undefined. -/
def grep1 (env : Env) (all : Char) : List Char → List Char → Nat → Nat → Res Bool
  | [], s, _, _ => .ok (s.isEmpty)
  | p :: rest, s, j, nbeg =>
    if p = '\\' then
      match rest with
      | [] => .ok (s.isEmpty)
      | q :: rest' =>
        match s with
        | [] => .ok false
        | c :: s' => if env.up c = env.up q then grep1 env all rest' s' (j + 1) nbeg else .ok false
    else if p = '?' then
      match s with
      | [] => .ok false
      | _ :: s' => grep1 env all rest s' (j + 1) nbeg
    else if p = '@' then
      match s with
      | [] => .ok false
      | c :: s' => if env.anum c then grep1 env all rest s' (j + 1) nbeg else .ok false
    else if p = '&' then
      match s with
      | [] => .ub
      | c :: s' => if env.anum c then .ok false else grep1 env all rest s' (j + 1) nbeg
    else if p = '!' then
      match s with
      | [] => grep1 env all rest [] j nbeg
      | c :: s' => orAtStart (if env.anum c then .ok false else grep1 env all rest s' 1 j)
          (nbeg == 0 && j == 0) (grep1 env all rest (c :: s') 0 1)
    else if p = '|' then
      match s with
      | [] => grep1 env all rest [] j nbeg
      | c :: s' => orAtStart (if env.anum c then grep1 env all rest s' 1 j else .ok false)
          (nbeg == 0 && j == 0) (grep1 env all rest (c :: s') 0 1)
    else if p = all then
      match rest with
      | [] => .ok true
      | q :: rest' => starLoop (fun s' j' => grep1 env all (q :: rest') s' 0 j') s j
    else
      match s with
      | [] => .ok false
      | c :: s' => if env.up c = env.up p then grep1 env all rest s' (j + 1) nbeg else .ok false

/-- `SCR_grep_gnl` (scr4/s_stgrep.c:54-57). -/
def grep (env : Env) (all : Char) (pattern string : List Char) : Res Bool := grep1 env all pattern string 0 0

/-- The loop of `KDB::grep` over the names, searching in names only (api/objs/k_grep.cpp:66-83). -/
def grepLoop (env : Env) (all : Char) (pattern : List Char) : List Name → Res (List Name)
  | [] => .ok []
  | n :: ns =>
    (grep env all pattern n).bind fun b => (grepLoop env all pattern ns).bind fun l => .ok (if b then n :: l else l)

/-- `KDB::grep(pattern, ecase, true, false, false, all)` (api/objs/k_grep.cpp:52-86). -/
def grepNames (env : Env) (all : Char) (pattern : List Char) (names : List Name) : Res (List Name) :=
  if pattern = [all] then .ok names else grepLoop env all pattern names

/-- One pattern of `KDB::expand` (api/objs/k_grep.cpp:190-208), already trimmed. -/
def expandOne (env : Env) (all : Char) (names : List Name) (p : List Char) : Res (List Name) :=
  match p with
  | [] => .ok []
  | c :: cs =>
    if c ≠ '"' ∧ ((c :: cs).contains all = true ∨ (c :: cs).contains '?' = true) then grepNames env all (c :: cs) names
    else .ok [c :: cs]

/-- `KDB::expand` (api/objs/k_grep.cpp:184-211) after `split_multi` and `trim`, before joining with ';'. -/
def expand (env : Env) (all : Char) (names : List Name) : List (List Char) → Res (List Name)
  | [] => .ok []
  | p :: ps => (expandOne env all names p).bind fun l => (expand env all names ps).bind fun r => .ok (l ++ r)

end Iode.Grep
