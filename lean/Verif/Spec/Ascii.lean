import Verif.Spec.LecLex
import Verif.Spec.Decimals
import Verif.Model.Printf

/-!
# Texts of variables, as described to users

A text of variables is the word `sample`, two periods, and for each variable its name and its values; values are numbers or
`na`, and gaps (white space and comments) are between all of them.  Independent of Model/Ascii.lean: only the values
(`Printf.Dbl`) are those of the model.
-/
namespace Iode
namespace Asc
namespace Written
open Lec.Written Decimals Printf

/-- A whole number of at most nine digits or a decimal number. -/
def Numeral (t : List Char) (r : Rat) : Prop :=
  (Digits t ∧ t ≠ [] ∧ t.length ≤ 9 ∧ r = dec t) ∨ Decimal t r

/-- The finite numbers a `double` can hold: 53 binary digits, the last one not below `2 ^ -1074`, when there is no upper limit. -/
def Binary (q : Rat) : Prop := ∃ m e : Int, |m| < (2 : Int) ^ 53 ∧ -1074 ≤ e ∧ q = m * (2 : Rat) ^ e

/-- The finite numbers a `double` can hold. -/
def Double (q : Rat) : Prop := Binary q ∧ |q| < (2 : Rat) ^ 1024

/-- The words that cannot be the name of a variable in a text: they belong to the text form of tables. -/
def reserved : List String :=
  ["BOLD", "UNDERLINE", "CENTER", "DATE", "DECIMAL", "DIM", "DIV", "DUTCH", "ENGLISH", "FILES", "FRENCH", "ITALIC", "LEC", "LEFT",
   "LINE", "MODE", "NORMAL", "RIGHT", "TITLE", "YMIN", "YMAX", "ZMIN", "ZMAX", "XGRID", "YGRID", "BOX", "AXIS", "ALIGN", "LAXIS",
   "RAXIS", "GRLINE", "GRBAR", "GRSCATTER", "sample"]

/-- Names: letters, digits and underscores, not beginning with a digit, at most 20 characters, neither `na` nor reserved. -/
structure VarName (w : List Char) : Prop where
  ne : w ≠ []
  head : ∀ c, w.head? = some c → ¬ Digit c
  all : ∀ c ∈ w, NameCh c
  short : w.length ≤ 20
  notNa : w ≠ ['n', 'a']
  free : ∀ k ∈ reserved, k.toList ≠ w

/-- Only white space may follow here. -/
def BlankEnd (s : List Char) : Prop := ∀ c, s.head? = some c → White c

/-- A text that begins with values, `missing` standing for `na`, `.` and `/`, and numbers rounded by `rnd`; the rest of the text. -/
inductive Vals (missing : Dbl) (rnd : Rat → Dbl) : List Dbl → List Char → List Char → Prop where
  | nil {s} : Vals missing rnd [] s s
  | na {g vs s s'} : Gap g → NameEnd s → Vals missing rnd vs s s' → Vals missing rnd (missing :: vs) (g ++ ('n' :: 'a' :: s)) s'
  | mark {g c vs s s'} : Gap g → c = '.' ∨ c = '/' → BlankEnd s → Vals missing rnd vs s s' →
      Vals missing rnd (missing :: vs) (g ++ c :: s) s'
  | num {g t r vs s s'} : Gap g → Numeral t r → t.length < 255 → NumEnd s → Vals missing rnd vs s s' →
      Vals missing rnd (rnd r :: vs) (g ++ (t ++ s)) s'
  | neg {g g' t r vs s s'} : Gap g → Gap g' → Numeral t r → t.length < 255 → NumEnd s → Vals missing rnd vs s s' →
      Vals missing rnd (rnd (-r) :: vs) (g ++ '-' :: (g' ++ (t ++ s))) s'

/-- A text of variables behind the sample. -/
inductive VLaid (missing : Dbl) (rnd : Rat → Dbl) : List (List Char × List Dbl) → List Char → Prop where
  | nil {g} : Gap g → VLaid missing rnd [] g
  | var {g w vs r s s'} : Gap g → VarName w → NameEnd s → Vals missing rnd vs s s' → VLaid missing rnd r s' →
      VLaid missing rnd ((w, vs) :: r) (g ++ (w ++ s))

/-- A whole text: the sample is written `2000Y1 2010Y1`. -/
inductive SLaid (missing : Dbl) (rnd : Rat → Dbl) (start stop : List Char) : List (List Char × List Dbl) → List Char → Prop where
  | mk {g0 g1 g2 vars s} : Gap g0 → Gap g1 → g1 ≠ [] → Gap g2 → g2 ≠ [] → NumEnd s → VLaid missing rnd vars s →
      SLaid missing rnd start stop vars (g0 ++ ("sample".toList ++ (g1 ++ (start ++ (g2 ++ (stop ++ s))))))

/-- The values of a variable of a sample of `nb` periods: missing at the end, the others left out. -/
def fit (missing : Dbl) (nb : Nat) (vs : List Dbl) : List Dbl := (vs ++ List.replicate nb missing).take nb

/-- `x` is a number of 53 binary digits (not below `2 ^ -1074`), and none is nearer to `r`. -/
def NearestD (r x : Rat) : Prop := Binary x ∧ ∀ s, Binary s → |r - x| ≤ |r - s|

/-- What is left of a value that is written with 15 decimal digits and read again; `number` tells values from missing ones. -/
def Restored (missing : Dbl) (number : Dbl → Bool) (v w : Dbl) : Prop :=
  (number v = false ∧ w = missing) ∨
    (number v = true ∧ ∃ q r x, v = .num q ∧ w = .num x ∧ Nearest 10 15 q r ∧ NearestD r x)

/-- The value of a variable in a list where later definitions replace earlier ones; names in upper case. -/
def lookLast (vars : List (List Char × List Dbl)) (k : List Char) : Option (List Dbl) :=
  ((vars.filter fun e => decide (e.1.map toUpperC = k)).getLast?).map (·.2)

end Written
end Asc
end Iode
