import Verif.Model.Names
import Verif.Model.SMap
import Verif.Model.Res

/-!
# Macros, loops and procedures of reports

Models api/report/engine/b_rep_defs.cpp, b_rep_foreach.cpp, b_rep_proc.cpp, `RP_goto_label` of
b_rep_cmds.cpp and the line loop of `RP_ReportExec_tbl` (b_rep_engine.cpp:1346-1465).

A report is a table of lines with a current line; every line is expanded (its macros are replaced) before
its command runs. Macros live in the global database `RP_MACRO` (api/objs/macros.h), whose type is OBJECTS:
names keep their case and must pass `check_name`.

Simplifications: the value of a macro is the list of its words; words contain none of the characters the
expansion interprets (`%`, `{`, `@`, backquote, quotes, separators); a macro reference is a word of its own.
Lines that are neither macro, loop, procedure nor return commands are printed text. `$goto`, `$label`,
`$if`, `$repeat`, `$shift` and nested report files are not modelled.
-/
namespace Iode.Macros

abbrev Word := List Char
abbrev Val := List Word
abbrev MacroDb := SMap Val

/-- A piece of a line: a plain word, or a reference `%x%`. -/
inductive Piece where
  | word (w : Word)
  | ref (x : Name)
  deriving Repr, DecidableEq

abbrev Expr := List Piece

/-- `RP_expand` (b_rep_engine.cpp:1202-1330), case `%`: the value of the macro, or, when `RP_gmacro`
    (b_rep_engine.cpp:603-657) does not find it, the text `%x%` itself. -/
def expandName (m : MacroDb) (x : Name) : Val :=
  match m.find x with
  | some v => v
  | none => [['%'] ++ x ++ ['%']]

def expandPiece (m : MacroDb) : Piece → Val
  | .word w => [w]
  | .ref x => expandName m x

/-- `RP_expand` of the arguments of a line. -/
def expand (m : MacroDb) (e : Expr) : Val := e.flatMap (expandPiece m)

/-- `RP_define_1` (b_rep_defs.cpp:40-56): `set_macro`, which throws on an invalid name. -/
def define1 (m : MacroDb) (x : Name) (v : Val) : Res MacroDb :=
  if checkName .objects x then .ok (m.insert x v) else .err

/-- `RP_define` (b_rep_defs.cpp:67-79) on the text `x v`. `B_get_arg0` (api/b_args.cpp:183-195) copies at most
    20 characters of the name; the value starts one character further, so that the end of a longer name
    becomes the first word of the value. -/
def defineCmd (m : MacroDb) (x : Name) (v : Val) : Res MacroDb :=
  define1 m (x.take 20) (if (x.drop 21).isEmpty then v else x.drop 21 :: v)

/-- `RP_undef_1` (b_rep_defs.cpp:118-125); the removal does nothing when the macro does not exist. -/
def undef1 (m : MacroDb) (x : Name) : MacroDb := m.erase x

/-- `RP_undef` (b_rep_defs.cpp:140-143) through `B_ainit_loop`/`B_loop` (api/b_args.cpp:125-141): the loop stops
    at the first non-zero return code, and `RP_undef_1` returns 1 when it has removed a macro. -/
def undefCmd (m : MacroDb) : List Name → MacroDb
  | [] => m
  | x :: xs => if m.has x then undef1 m x else undefCmd m xs

/-- The name `b#k` under which a macro is saved (b_rep_defs.cpp:214, 244); `K_SECRETSEP` is `#`. -/
def saved (b : Name) (k : Nat) : Name := b ++ '#' :: natToChars k

/-- The rest of `s` after the prefix `p` (`strncmp(buf, name, lg) == 0`, b_rep_defs.cpp:180). -/
def dropPrefix : Name → Name → Option Name
  | [], s => some s
  | _ :: _, [] => none
  | c :: p, d :: s => if c = d then dropPrefix p s else none

/-- `atoi` on the characters of a name: digits up to the first other character, 0 if there are none. -/
def atoiName (s : Name) : Nat := digitsVal 0 (s.takeWhile isDigitC)

/-- One turn of the loop of `RP_define_calcdepth` (b_rep_defs.cpp:178-187). -/
def depthStep (b : Name) (acc : Option Nat) (key : Name) : Option Nat :=
  match dropPrefix (b ++ ['#']) key with
  | none => acc
  | some s =>
    match acc with
    | none => some (atoiName s)
    | some k => if k < atoiName s then some (atoiName s) else some k

/-- `RP_define_calcdepth` (b_rep_defs.cpp:169-190); `none` stands for −1. -/
def calcDepth (m : MacroDb) (b : Name) : Option Nat := (SMap.keys m).foldl (depthStep b) none

/-- `maxdepth + 1` -/
def nextDepth : Option Nat → Nat
  | none => 0
  | some k => k + 1

/-- `RP_define_save` (b_rep_defs.cpp:201-219). -/
def save (m : MacroDb) (b : Name) : Res MacroDb :=
  match m.find b with
  | none => .ok m
  | some v => define1 m (saved b (nextDepth (calcDepth m b))) v

/-- `RP_define_restore` (b_rep_defs.cpp:232-252). `get_macro` of a missing name throws. -/
def restore (m : MacroDb) (b : Name) : Res MacroDb :=
  match calcDepth (undef1 m b) b with
  | none => .ok (undef1 m b)
  | some k =>
    match (undef1 m b).find (saved b k) with
    | none => .err
    | some v => (define1 (undef1 m b) b v).bind fun m' => .ok (undef1 m' (saved b k))

/-- `RP_define_save_list` (b_rep_defs.cpp:263-273). -/
def saveList (m : MacroDb) : List Name → Res MacroDb
  | [] => .ok m
  | x :: xs => (save m x).bind fun m' => saveList m' xs

/-- `RP_define_restore_list` (b_rep_defs.cpp:284-294). -/
def restoreList (m : MacroDb) : List Name → Res MacroDb
  | [] => .ok m
  | x :: xs => (restore m x).bind fun m' => restoreList m' xs

/-- The macro holding the values a loop has still to visit (b_rep_foreach.cpp:87, 124). -/
def loopVar (x : Name) : Name := ['F', 'O', 'R', 'E', 'A', 'C', 'H', '_', '_'] ++ x

/-- The end of a loop (b_rep_foreach.cpp:86-93). -/
def loopEnd (m : MacroDb) (x : Name) : Res MacroDb :=
  (restore (undef1 (undef1 m x) (loopVar x)) x).bind fun m' => restore m' (loopVar x)

/-- `RP_foreach_next_index` (b_rep_foreach.cpp:74-103): `false` when the loop is over. `@vcount`, `@vtake` and
    `@vdrop` (b_rep_fns.cpp:1789-1894) work on the expansion of `%FOREACH__x%`. -/
def nextIndex (m : MacroDb) (x : Name) : Res (Bool × MacroDb) :=
  match expandName m (loopVar x) with
  | [] => (loopEnd m x).bind fun m' => .ok (false, m')
  | v :: _ =>
    (defineCmd m x [v]).bind fun m1 =>
      (defineCmd m1 (loopVar x) ((expandName m1 (loopVar x)).drop 1)).bind fun m2 => .ok (true, m2)

/-- What `RP_foreach` (b_rep_foreach.cpp:112-132) does before it looks for the first index; `v` is the expanded
    list of values. -/
def loopStart (m : MacroDb) (x : Name) (v : Val) : Res MacroDb :=
  (save m x).bind fun m1 =>
    (save m1 (loopVar x)).bind fun m2 =>
      (define1 m2 x v).bind fun m3 => defineCmd m3 (loopVar x) (expandName m3 x)

/-- The creation of the macros of the parameters (b_rep_proc.cpp:294-311): one actual parameter each, the last
    formal one takes all remaining actual ones. With actual but no formal parameters the code reads
    `proc_parms[-1]`. -/
def bindParams (m : MacroDb) : List Name → List Word → Res MacroDb
  | _, [] => .ok m
  | [], _ :: _ => .ub
  | [p], ws => define1 m p ws
  | p :: ps, w :: ws => (define1 m p [w]).bind fun m' => bindParams m' ps ws

/-- The lines of a report. -/
inductive Line where
  | define (x : Name) (e : Expr)
  | undef (xs : List Name)
  | text (e : Expr)
  | foreach (x : Name) (e : Expr)
  | next (x : Name)
  | call (p : Name) (e : Expr)
  | ret
  deriving Repr, DecidableEq

/-- `RP_goto_label("next", x)` (b_rep_cmds.cpp:196-238): the line after the first `$next x` from `pc` on (both
    names in lower case), the end of the file if there is none. -/
def findNext (x : Name) : List Line → Nat → Nat
  | [], pc => pc
  | .next y :: ls, pc => if toLower y = toLower x then pc + 1 else findNext x ls (pc + 1)
  | _ :: ls, pc => findNext x ls (pc + 1)

/-- The backward search of `RP_foreach_goto_next` (b_rep_foreach.cpp:178-206) over the lines before `$next`, last
    one first: the position after the nearest `$foreach x`. -/
def findForeach (x : Name) : List Line → Option Nat
  | [] => none
  | .foreach y _ :: ls => if y = x then some (ls.length + 1) else findForeach x ls
  | _ :: ls => findForeach x ls

/-- A report or procedure being executed: its lines, the current line, and the parameters to restore at its
    end (b_rep_proc.cpp:320). -/
structure Frame where
  lines : List Line
  pc : Nat
  params : List Name
  deriving Repr, DecidableEq

/-- The state of the engine: the active reports (innermost first), the macros, and what has been printed. -/
structure Cfg where
  stack : List Frame
  macros : MacroDb
  out : List Val
  deriving Repr, DecidableEq

/-- A defined procedure (`REP_PROC`). -/
structure Proc where
  params : List Name
  lines : List Line
  deriving Repr, DecidableEq

abbrev Procs := Name → Option Proc

/-- The end of `RP_ReportExec_tbl` and, for a procedure, of `RP_procexec` (b_rep_proc.cpp:317-322). -/
def leave (f : Frame) (stk : List Frame) (m : MacroDb) (out : List Val) : Res Cfg :=
  (restoreList m f.params).bind fun m' => .ok ⟨stk, m', out⟩

/-- Executing one line of the report `f` (b_rep_engine.cpp:1358-1456). -/
def execLine (P : Procs) (f : Frame) (stk : List Frame) (m : MacroDb) (out : List Val) : Line → Res Cfg
  | .define x e =>
    (defineCmd m x (expand m e)).bind fun m' => .ok ⟨{ f with pc := f.pc + 1 } :: stk, m', out⟩
  | .undef xs => .ok ⟨{ f with pc := f.pc + 1 } :: stk, undefCmd m xs, out⟩
  | .text e => .ok ⟨{ f with pc := f.pc + 1 } :: stk, m, out ++ [expand m e]⟩
  | .foreach x e =>
    (loopStart m x (expand m e)).bind fun m1 =>
      (nextIndex m1 x).bind fun r =>
        .ok ⟨{ f with pc := if r.1 then f.pc + 1 else findNext x (f.lines.drop (f.pc + 1)) (f.pc + 1) } :: stk,
             r.2, out⟩
  | .next x =>
    match findForeach x (f.lines.take f.pc).reverse with
    | none => .ok ⟨{ f with pc := f.pc + 1 } :: stk, m, out⟩
    | some j =>
      (nextIndex m x).bind fun r => .ok ⟨{ f with pc := if r.1 then j else f.pc + 1 } :: stk, r.2, out⟩
  | .call p e =>
    match P p with
    | none => .err
    | some pr =>
      (saveList m pr.params).bind fun m1 =>
        (bindParams m1 pr.params (expand m e)).bind fun m2 =>
          .ok ⟨⟨pr.lines, 0, pr.params⟩ :: { f with pc := f.pc + 1 } :: stk, m2, out⟩
  | .ret => leave f stk m out

/-- One step of the engine. -/
def step (P : Procs) (c : Cfg) : Res Cfg :=
  match c.stack with
  | [] => .ok c
  | f :: stk =>
    match f.lines[f.pc]? with
    | none => leave f stk c.macros c.out
    | some l => execLine P f stk c.macros c.out l

/-- `n` steps. -/
def steps (P : Procs) : Nat → Cfg → Res Cfg
  | 0, c => .ok c
  | n + 1, c => (step P c).bind (steps P n)

/-- The state in which `RP_ReportExec_tbl` starts a report. -/
def start (lines : List Line) (m : MacroDb) : Cfg := ⟨[⟨lines, 0, []⟩], m, []⟩

end Iode.Macros
