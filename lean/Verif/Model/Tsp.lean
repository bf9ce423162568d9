import Verif.Model.Export

/-!
# Model of the export of variables for TSP

Source: api/io/k_etsp.cpp, api/io/k_emain.cpp, scr4/s_sttext.c.

Rules, values and comments are those of Export.

Simplifications
* comments are in the character set of the file;
* a sample without periods, for which the pointer to the values is null, is left out.
-/
namespace Iode.Tsp

open Iode.Yy (Text skipSpaces)
open Iode.Printf (Dbl)
open Iode.Exp (Conf prePost vec texts chosen)
open Iode.Imp (Rule)

/-- `prev` of `SCR_text(str, " ", lg)`, scr4/s_sttext.c 59-60: the index of the last blank, 0 if there is none. -/
def lastBlank : Nat → Nat → Text → Nat
  | prev, _, [] => prev
  | prev, i, c :: r => lastBlank (if c = ' ' then i else prev) (i + 1) r

/-- The number of characters of the first line, scr4/s_sttext.c 59-63. -/
def cut (lg : Nat) (s : Text) : Nat :=
  let l := (s.takeWhile (fun c => c ≠ '\n')).take lg
  let prev := lastBlank 0 0 l
  if l.length < s.length ∧ lg ≤ l.length ∧ 0 < prev then prev + 1 else l.length

/-- `SCR_text(str, " ", lg)`, scr4/s_sttext.c 44-76; `fuel` is more than the number of lines. -/
def wrap (lg : Nat) : Nat → Text → List Text
  | 0, _ => []
  | n + 1, s =>
    match skipSpaces s with
    | [] => []
    | c :: r =>
      (c :: r).take (cut lg (c :: r)) ::
        (if (c :: r).drop (cut lg (c :: r)) = [] then [] else wrap lg n ((c :: r).drop (cut lg (c :: r))))

/-- The lines of a text. -/
def lines (lg : Nat) (s : Text) : List Text := wrap lg (s.length + 1) s

/-- A year, a colon and a step, k_etsp.cpp 66-67. -/
def yearStep (p : Period) : Text := (toString p.year).toList ++ (':' :: (toString p.step).toList)

/-- `ExportObjsTSP::write_header`, k_etsp.cpp 46-79. -/
def header (smp : Sample) : Res Text :=
  (nbPeriodsPerYear smp.start.periodicity).bind fun freq =>
    let p : Text × Text :=
      if freq = 1 then (['A'], (toString smp.start.year).toList ++ (' ' :: (toString smp.stop.year).toList))
      else if freq = 4 then (['Q'], yearStep smp.start ++ (' ' :: yearStep smp.stop))
      else if freq = 12 then (['M'], yearStep smp.start ++ (' ' :: yearStep smp.stop))
      else ([], [])
    .ok (['F', 'R', 'E', 'Q', ' '] ++ (p.1 ++ ([';', '\n', 'S', 'M', 'P', 'L', ' '] ++ (p.2 ++ [' ', ';', '\n']))))

/-- `extract_comment`, k_etsp.cpp 92-105. -/
def comment (cmts : SMap Text) (w : Text) : Text := (SMap.find (toKey .comments w) cmts).getD [' ']

/-- One round of the loop of `EXP_Ws` (k_emain.cpp 227-241) with `write_object_name`, `get_variable_value` and `write_variable_and_comment`
(k_etsp.cpp 87-90, 107-149). -/
def block (cf : Conf) (cmts : SMap Text) (dim : Nat) (e : Text × Text × List Dbl) : Res Text :=
  (vec (prePost [] [' ']) cf dim e.2.2).bind fun v =>
    .ok (prePost ['L', 'O', 'A', 'D', ' '] [' ', ';', '\n'] e.2.1 ++ ([' ', '\n'] ++
      ((lines 75 (comment cmts e.1)).flatMap (fun l => '?' :: ' ' :: (l ++ ['\n'])) ++
        ((lines 80 v).flatMap (fun l => l ++ ['\n']) ++ [' ', ';', '\n']))))

/-- `EXP_Ws`, k_emain.cpp 208-257, for TSP. -/
def tsp (cf : Conf) (rules : List Rule) (smp : Sample) (vars : SMap (List Dbl)) (cmts : SMap Text) : Res Text :=
  (header smp).bind fun h => (chosen rules vars).bind fun es =>
  (texts (block cf cmts smp.nb.toNat) es).bind fun t => .ok (h ++ t)

end Iode.Tsp
