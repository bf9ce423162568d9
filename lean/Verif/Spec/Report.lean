import Verif.Spec.Expand
import Verif.Model.Report

/-!
# How the lines of a report are written and what is expected of them
-/
namespace Iode.Report
open Iode.Expand

variable {σ : Type}

/-- The report ends, from the line `cur` on. -/
def Ends (S : Sys σ) (tbl : List Text) (cur : Nat) (g : Glob σ) (r : Res (Glob σ × Int)) : Prop := ∃ n, runFrom S n tbl cur g = some r

/-- A text without blanks around it. -/
def Trimmed (t : Text) : Prop := (∀ c, t.head? = some c → isSpace c = false) ∧ ∀ c, t.getLast? = some c → 32 < c.toNat

/-- The name of a command. -/
def Name (t : Text) : Prop := t ≠ [] ∧ (∀ c ∈ t, wordCh c = true) ∧ t.length ≤ 30

/-- A command; the dash is for errors that are ignored. -/
def cmdText (fs : Char) (ignore : Bool) (name arg : Text) : Text :=
  fs :: ((if ignore then ['-'] else []) ++ (name ++ if arg = [] then [] else ' ' :: arg))

/-- Equal but for the case of the letters. -/
def SameName (a : Text) (b : String) : Prop := a.map toLowerC = b.toList

/-- The commands of the report itself. -/
def reserved : List String := ["label", "goto", "return", "abort", "onerror", "shift", "shift_args", "repeatstring", "repeat", "reportexec"]

/-- The line `cur` of the report, not continued on the next one, is the text `t` after expansion. -/
def Line (S : Sys σ) (tbl : List Text) (cur : Nat) (g g1 : Glob σ) (t : Text) : Prop :=
  ∃ raw, tbl[cur]? = some raw ∧ (S.multi = true → continued raw = false) ∧ expand (env S) g raw = .ok (g1, t)

/-- A line that is printed: it does not begin with `$` or `#` (nor with blanks before them), or it begins with two of them. -/
def Printed (t : Text) : Prop :=
  (∀ c, (t.dropWhile isSpace).head? = some c → c ≠ '$' ∧ c ≠ '#') ∨ ∃ r, t = '$' :: '$' :: r ∨ t = '#' :: '#' :: r

/-- A line with a note. -/
def Note (t : Text) : Prop := ∃ c r, (c = '$' ∨ c = '#') ∧ (t = [c] ∨ t = c :: ' ' :: r)

/-- The lines of a report as `$goto` sees them. -/
inductive RLine where
  | label (fs : Char) (name lab : Text)
  | other (t : Text)

def RLine.text : RLine → Text
  | .label fs name lab => cmdText fs false name lab
  | .other t => t

def RLine.Good : RLine → Prop
  | .label fs name lab => (fs = '$' ∨ fs = '#') ∧ SameName name "label" ∧ Trimmed lab
  | .other t => (∀ c, t.head? = some c → isSpace c = false) ∧ (t.tail.takeWhile wordCh).length ≤ 127 ∧
      ¬ ((t.head? = some '$' ∨ t.head? = some '#') ∧ SameName (t.tail.takeWhile wordCh) "label")

/-- The line is the label `lab`. -/
def RLine.isLabel (lab : Text) : RLine → Bool
  | .label _ _ l => l.map toLowerC == lab.map toLowerC
  | .other _ => false

/-- The lines of the text, each joined with those it is continued on. -/
def logical : List Text → List Text
  | [] => []
  | l :: r =>
    if continued l then
      match logical r with
      | [] => [l.dropLast.dropLast ++ ['\n']]
      | t :: ts => (l.dropLast.dropLast ++ '\n' :: t) :: ts
    else l :: logical r

/-- The reactions to errors: `$OnError ignore`, `return`, `abort`, `quitode`. -/
def Reaction (k : Int) : Prop := k = 0 ∨ k = -2 ∨ k = -3 ∨ k = -4

/-- A word that is read as one argument. -/
def Word (t : Text) : Prop := t ≠ [] ∧ (∀ c ∈ t, c ∉ seps) ∧ t.head? ≠ some '"'

end Iode.Report
