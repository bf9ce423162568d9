import Verif.Model.Expand

/-!
# Model of the execution of reports (api/report/engine/b_rep_engine.cpp RP_ReportExec_tbl, B_ReportExec, B_ReportLine; b_rep_cmds.cpp)

Modelled: reading and joining the lines, the distinction between text, notes and commands, `$label`, `$goto`, `$return`, `$abort`, `$onerror`,
`$shift`, `$repeat`, `$repeatstring`, `$ReportExec`, and what is done with the codes that the commands return.  All the other commands, the
functions and the expressions are given by a system `Sys` over a state `σ`: they do not change the arguments of the report, its current line
or the reaction to errors.  `$foreach` and the procedures are in Model/Macros.  `$indent`, `$multiline` and `$noparsing` are parameters that do
not change.
-/
namespace Iode.Report
open Iode.Expand

structure Sys (σ : Type) where
  look : σ → Text → Option Text
  eval : σ → Text → σ × Option Text
  fn : σ → Text → List Text → σ × Option Text
  /-- the other commands: `RP_exec_fn`, b_rep_engine.cpp 513-530; the code is -1 for a command that does not exist -/
  cmd : σ → Text → Text → Char → σ × Int
  /-- `W_printf("%s\n", line)` -/
  print : σ → Text → σ
  /-- `RP_err_dump`, b_rep_engine.cpp 538-551 -/
  dump : σ → Text → Text → σ
  /-- `set_file_extension` and `RP_read_file`: the lines of a report file -/
  file : σ → Text → Option (List Text)
  /-- `B_ainit_chk(arg, NULL, 0)`, api/b_args.cpp 58-75: the arguments, with the lists and files in them -/
  args : σ → Text → Option (List Text)
  /-- `RP_MACRO->clear()`, when the first report ends -/
  clear : σ → σ
  /-- `RP_ALLOW_INDENT`, `RP_ALLOW_MULTILINE`, `RP_ALLOW_NOPARSING`, reports.h 60-62 -/
  indent : Bool
  multi : Bool
  noparse : Bool

/-- The global variables of the reports, reports.h 53-64, b_rep_engine.cpp 150-151. -/
structure Glob (σ : Type) where
  s : σ
  /-- the name of the report and `RP_ARGV` -/
  argv : List Text
  /-- `RP_ARG0` -/
  arg0 : Int
  /-- `RP_RT` -/
  rt : Int
  /-- `RP_PRINT` -/
  pr : Int
  /-- `RP_RPTSTR`, `_` if it is the null pointer -/
  rpt : Text
  /-- `RP_DEPTH` -/
  depth : Nat

variable {σ : Type}

/-- What the lines depend on. -/
def env (S : Sys σ) : Env (Glob σ) where
  look g x := S.look g.s x
  argv g := g.argv
  arg0 g := g.arg0
  noparse _ := S.noparse
  eval g t := let v := S.eval g.s t; ({ g with s := v.1 }, v.2)
  fn g f a := let v := S.fn g.s f a; ({ g with s := v.1 }, v.2)

def Glob.print (S : Sys σ) (g : Glob σ) (t : Text) : Glob σ := { g with s := S.print g.s t }

/-- `SCR_is_space`, scr4/s_strs.h. -/
def isSpace (c : Char) : Bool := c = ' ' || c = '\t' || c = '\n' || c = '\r' || c.toNat = 11 || c.toNat = 12

/-- `U_ljust_text`, scr4/s_stljus.c, s_stushf.c: blanks are added at the end; a text of blanks is not changed. -/
def ljust (t : Text) : Text :=
  let r := t.dropWhile isSpace
  if r = [] then t else r ++ List.replicate (t.length - r.length) ' '

/-- `SCR_strip`, scr4/s_ststrp.c: the characters up to the blank are removed at the end. -/
def strip (t : Text) : Text := (t.reverse.dropWhile fun c => c.toNat ≤ 32).reverse

/-- The test of `RP_read_multiline`, b_rep_engine.cpp 307-308. -/
def continued (t : Text) : Bool := match t.reverse with
  | '\\' :: ' ' :: _ => true
  | _ => false

/-- `RP_read_multiline`, b_rep_engine.cpp 296-317: the text read behind `acc` and the number of lines read. -/
def joinLines (multi : Bool) (acc : Text) : List Text → Text × Nat
  | [] => (acc, 0)
  | l :: r =>
    if multi && continued (acc ++ l) then
      let p := joinLines multi ((acc ++ l).dropLast.dropLast ++ ['\n']) r
      (p.1, p.2 + 1)
    else (acc ++ l, 1)

/-- `RP_readline` without the expansion, b_rep_engine.cpp 331-337: the line at `cur` and the next position; `none` at the end. -/
def readLine (multi : Bool) (tbl : List Text) (cur : Nat) : Option (Text × Nat) :=
  if cur ≥ tbl.length then none
  else
    let p := joinLines multi [] (tbl.drop cur)
    some (p.1, cur + p.2)

/-- The end of `RP_readline`, b_rep_engine.cpp 349-357. -/
def justify (indent : Bool) (t : Text) : Text :=
  if indent then
    match t.dropWhile isSpace with
    | c :: _ => if c = '$' ∨ c = '#' then ljust t else t
    | [] => t
  else t

/-- What a line is, b_rep_engine.cpp 1391-1394. -/
inductive Kind where
  | text | note | command
deriving DecidableEq

def kind : Text → Kind
  | [] => .text
  | c :: r =>
    if c = '#' ∨ c = '$' then
      match r with
      | [] => .note
      | d :: _ => if d = c then .text else if d ∈ [' ', '\n', '\r', '\t'] then .note else .command
    else .text

/-- `RP_splitline`, b_rep_engine.cpp 411-438: the name, the argument, and 0 or -1. -/
def splitLine (t : Text) : Text × Text × Int :=
  match t with
  | [] => ([], [], -1)
  | c :: _ => if c = '\n' then ([], strip (ljust t), -1) else (t.takeWhile wordCh, strip (ljust (t.dropWhile wordCh)), 0)

/-- `atoi`; `none` if the number is not an `int`. -/
def atoi (t : Text) : Option Int :=
  match t.dropWhile isSpace with
  | '-' :: r => let v := digitsVal 0 (r.takeWhile isDigitC); if v ≤ 2147483648 then some (-v) else none
  | '+' :: r => let v := digitsVal 0 (r.takeWhile isDigitC); if v ≤ 2147483647 then some v else none
  | r => let v := digitsVal 0 (r.takeWhile isDigitC); if v ≤ 2147483647 then some v else none

/-- `B_SEPS`, api/constants.h:220. -/
def seps : List Char := [' ', ',', '\n', '\t']

/-- The loop of `RP_goto_label`, b_rep_cmds.cpp 207-231, from the position `cur`; `n` is more than the number of lines left.  The position
behind the label, `none` if there is no such label (code -3).  The name of a command in a line is written to an array of 128 characters. -/
def findLabel (S : Sys σ) (tbl : List Text) (lab : Text) : Nat → Nat → Res (Option Nat)
  | 0, _ => .ok none
  | n + 1, cur =>
    match readLine S.multi tbl cur with
    | none => .ok none
    | some (t, next) =>
      let t := justify S.indent t
      if kind t = .command then
        let (name, arg, _) := splitLine t.tail
        if name.length > 127 then .ub
        else if name.map toLowerC = "label".toList ∧ arg.map toLowerC = lab then .ok (some next)
        else findLabel S tbl lab n next
      else findLabel S tbl lab n next

/-- `RP_goto_label("label", lab)`, b_rep_cmds.cpp 196-238: the code and the new position. -/
def gotoLabel (S : Sys σ) (tbl : List Text) (lab : Text) : Res (Int × Nat) :=
  (findLabel S tbl ((lab.filter (· ≠ ' ')).map toLowerC) (tbl.length + 1) 0).bind fun
    | some k => .ok (0, k)
    | none => .ok (-3, tbl.length)

/-- `RP_goto`, b_rep_cmds.cpp 243-275. -/
def gotoCmd (S : Sys σ) (tbl : List Text) (cur : Nat) (arg : Text) : Res (Int × Nat) :=
  match split seps arg with
  | [] => .ok (-3, cur)
  | [lab] => gotoLabel S tbl lab
  | lab :: v :: _ =>
    match atoi v with
    | none => .ub
    | some k => if k = 0 ∨ k = -1 then .ok (k, cur) else gotoLabel S tbl lab

/-- `RP_onerror_1`, b_rep_cmds.cpp 120-133. -/
def onError1 (g : Glob σ) (a : Text) : Glob σ :=
  let a := a.map toUpperC
  if a = "IGNORE".toList then { g with rt := 0 }
  else if a = "RETURN".toList then { g with rt := -2 }
  else if a = "ABORT".toList then { g with rt := -3 }
  else if a = "QUITODE".toList then { g with rt := -4 }
  else if a = "DISPLAY".toList then { g with pr := 2 }
  else if a = "PRINT".toList then { g with pr := 1 }
  else if a = "NOPRINT".toList then { g with pr := 0 }
  else g

/-- `RP_onerror`, b_rep_cmds.cpp 140-143, api/b_args.cpp: each of the arguments. -/
def onError (S : Sys σ) (g : Glob σ) (arg : Text) : Glob σ × Int :=
  match S.args g.s arg with
  | none => (g, -1)
  | some as => (as.foldl onError1 g, 0)

/-- `RP_shift_args`, b_rep_cmds.cpp 453-462. -/
def shift (g : Glob σ) (arg : Text) : Res (Glob σ × Int) :=
  if strip arg = [] then .ok ({ g with arg0 := g.arg0 + 1 }, 0)
  else match atoi (strip arg) with
    | none => .ub
    | some k => .ok ({ g with arg0 := g.arg0 + k }, 0)

/-- `SCR_replace`, scr4/s_strepl.c 31-66: every occurrence from left to right. `n` is more than the length of the text. -/
def replaceN (old new : Text) : Nat → Text → Text
  | 0, t => t
  | _, [] => []
  | n + 1, c :: t => if old.isPrefixOf (c :: t) then new ++ replaceN old new n ((c :: t).drop old.length) else c :: replaceN old new n t

def replace (old new t : Text) : Text := replaceN old new (t.length + 1) t

/-- The result of a run: `none` while it has not ended. -/
abbrev Out (α : Type) := Option (Res α)

def Out.bind {α β : Type} (x : Out α) (f : α → Out β) : Out β :=
  match x with
  | none => none
  | some (.ok a) => f a
  | some .err => some .err
  | some .ub => some .ub

/-- How a report is run from its first line. -/
abbrev Runner (σ : Type) := List Text → Glob σ → Out (Glob σ × Int)

/-- `B_ReportExec`, b_rep_engine.cpp 1510-1560, `RP_ReportExec_1` 1481-1497. -/
def reportExec (S : Sys σ) (run : Runner σ) (g : Glob σ) (arg : Text) : Out (Glob σ × Int) :=
  let back (h : Glob σ) (c : Int) : Glob σ × Int :=
    ({ h with argv := g.argv, arg0 := g.arg0, depth := g.depth, s := if g.depth = 0 then S.clear h.s else h.s }, c)
  match S.args g.s arg with
  | none => some (.ok (back g (-1)))
  | some [] => some (.ok (back g (-1)))
  | some (name :: rest) =>
    match S.file g.s name with
    | none => some (.ok (back g (-1)))
    | some tbl => (run tbl { g with argv := name :: rest, arg0 := 0, depth := g.depth + 1 }).bind fun p => some (.ok (back p.1 p.2))

/-- `B_ReportLine(line, 1)`, b_rep_engine.cpp 1573-1634: lines separated by line feeds, as a report without arguments. -/
def reportLine (S : Sys σ) (run : Runner σ) (g : Glob σ) (line : Text) : Out (Glob σ × Int) :=
  (run ((line.splitOnP (· == '\n')).filter (· ≠ [])) { g with argv := ["temp.rep".toList], arg0 := 0, depth := g.depth + 1 }).bind fun p =>
    some (.ok ({ p.1 with argv := g.argv, arg0 := g.arg0, depth := g.depth, s := if g.depth = 0 then S.clear p.1.s else p.1.s }, p.2))

/-- The loop of `RP_repeat`, b_rep_cmds.cpp 102-107.  The command is built in an allocation of `room` characters. -/
def repeatLoop (S : Sys σ) (run : Runner σ) (cmd : Text) (room : Nat) : Glob σ → List Text → Out (Glob σ)
  | g, [] => some (.ok g)
  | g, a :: as =>
    let t := replace g.rpt a cmd
    if t.length + 1 > room then some .ub
    else (reportLine S run g t).bind fun p => if p.2 ≠ 0 then some (.ok p.1) else repeatLoop S run cmd room p.1 as

/-- `RP_repeat`, b_rep_cmds.cpp 67-113: the text is expanded again; without a second quote the command is also read as the arguments. -/
def repeatCmd (S : Sys σ) (run : Runner σ) (g : Glob σ) (buf : Text) : Out (Glob σ × Int) :=
  match expand (env S) g buf with
  | .err => some .err
  | .ub => some .ub
  | .ok (g, line) =>
    match extract '"' line with
    | none => some (.ok (g, -1))
    | some (_, r) =>
      let (cmd, rest) := (extract '"' r).getD (r, r)
      match S.args g.s rest with
      | none => some (.ok (g, -1))
      | some as =>
        let maxlg := as.foldl (fun m a => max m a.length) 0
        (repeatLoop S run cmd (cmd.length + 10 * maxlg + 64) g as).bind fun h => some (.ok (h, 0))

/-- The commands of the report itself, b_rep_syntax.cpp 44-74, 222, and the others. -/
inductive Which where
  | label | goto | ret | abort | onerror | shift | repeatString | rep | exec | other

/-- `RP_find_fn`, b_rep_engine.cpp 451-503: the name is compared in lower case. -/
def which (name : Text) (fs : Char) : Which :=
  let name := name.map toLowerC
  if name = "label".toList then .label
  else if name = "goto".toList then .goto
  else if name = "return".toList then .ret
  else if name = "abort".toList then .abort
  else if name = "onerror".toList then .onerror
  else if name = "shift".toList ∨ name = "shift_args".toList then .shift
  else if name = "repeatstring".toList then .repeatString
  else if name = "repeat".toList then .rep
  else if name = "reportexec".toList ∧ fs = '$' then .exec
  else .other

/-- `RP_exec_fn`, b_rep_engine.cpp 513-530: the code of the command and the new position. -/
def execFn (S : Sys σ) (run : Runner σ) (tbl : List Text) (cur : Nat) (g : Glob σ) (name arg : Text) (fs : Char) : Out (Glob σ × Int × Nat) :=
  let stay (x : Out (Glob σ × Int)) : Out (Glob σ × Int × Nat) := x.bind fun p => some (.ok (p.1, p.2, cur))
  match which name fs with
  | .label => some (.ok (g, 0, cur))
  | .goto => some ((gotoCmd S tbl cur arg).bind fun p => .ok (g, p.1, p.2))
  | .ret => some (.ok (g, -2, cur))
  | .abort => some (.ok (g, -3, cur))
  | .onerror => stay (some (.ok (onError S g arg)))
  | .shift => stay (some (shift g arg))
  | .repeatString =>
    let t := arg.filter (· ≠ ' ')
    some (.ok ({ g with rpt := if t = [] then ['_'] else t }, 0, cur))
  | .rep => stay (repeatCmd S run g arg)
  | .exec => stay (reportExec S run g arg)
  | .other => let v := S.cmd g.s (name.map toLowerC) arg fs; some (.ok ({ g with s := v.1 }, v.2, cur))

/-- What is done with the code of a command, b_rep_engine.cpp 1414-1452: `none`, the report goes on; `some c`, it ends with the code `c`. -/
def react (S : Sys σ) (g : Glob σ) (ignore : Bool) (name arg : Text) (rt : Int) : Glob σ × Option Int :=
  if rt = -1 then
    if ignore then (g, none)
    else
      let g := if g.pr ≠ 0 then { g with s := S.dump g.s name arg } else g
      if g.rt = 0 then (g, none)
      else if g.rt = -2 then (g, some 0)
      else (g, some g.rt)
  else if rt = -2 then (g, some 0)
  else if rt = -3 ∨ rt = -4 then (g, some rt)
  else (g, none)

/-- A command as it is read from a line. -/
structure Cmd where
  fs : Char
  ignore : Bool
  name : Text
  arg : Text
  rc : Int

/-- `RP_chk_ignore` and `RP_splitline`, b_rep_engine.cpp 1397-1398. -/
def parseCmd (t : Text) : Cmd :=
  let ignore := t.tail.head? == some '-'
  let p := splitLine (t.drop (if ignore then 2 else 1))
  { fs := t.headD ' ', ignore := ignore, name := p.1, arg := p.2.1, rc := p.2.2 }

/-- b_rep_engine.cpp 1398-1407; the name of the command is written to an array of 31 characters. -/
def doCmd (S : Sys σ) (run : Runner σ) (tbl : List Text) (cur : Nat) (g : Glob σ) (c : Cmd) : Out (Glob σ × Int × Nat) :=
  if c.name.length > 30 then some .ub
  else if c.rc = 0 ∧ c.name ≠ [] then execFn S run tbl cur g c.name c.arg c.fs
  else some (.ok (g, c.rc, cur))

/-- `RP_ReportExec_tbl`, b_rep_engine.cpp 1346-1465, from the line `cur`; `none` if it has not ended after `n` lines. -/
def runFrom (S : Sys σ) : Nat → List Text → Nat → Glob σ → Out (Glob σ × Int)
  | 0, _, _, _ => none
  | n + 1, tbl, cur, g =>
    match readLine S.multi tbl cur with
    | none => some (.ok (g.print S [], 0))
    | some (raw, next) =>
      match expand (env S) g raw with
      | .err => some .err
      | .ub => some .ub
      | .ok (g, t) =>
        let t := justify S.indent t
        match kind t with
        | .text => runFrom S n tbl next (g.print S t)
        | .note => runFrom S n tbl next g
        | .command =>
          (doCmd S (fun tbl g => runFrom S n tbl 0 g) tbl next g (parseCmd t)).bind fun p =>
            match react S p.1 (parseCmd t).ignore (parseCmd t).name (parseCmd t).arg p.2.1 with
            | (g, some c) => some (.ok (g.print S [], c))
            | (g, none) => runFrom S n tbl p.2.2 g

end Iode.Report
