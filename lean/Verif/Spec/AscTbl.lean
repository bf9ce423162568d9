import Verif.Spec.AscEqs

/-!
# Texts of tables, as described to users

A table is a name and, between braces, settings, dividers and lines.  Texts are first cut into elements (words, numbers, signs and
strings with gaps between them); tables are sequences of elements.  Independent of Model/AscTbl.lean: only
values (`Printf.Dbl`) are those of the model.
-/
namespace Iode
namespace Asc
namespace Written
open Lec.Written Printf Decimals

/-! ## Elements -/

inductive TTok where
  | word (w : List Char)
  | int (n : Nat)
  | num (r : Rat)
  | sign (c : Char)
  | str (t : List Char)

/-- A text that consists of these elements. -/
inductive Toks : List TTok → List Char → Prop where
  | nil {g} : Gap g → Toks [] g
  | word {g w ts s} : Gap g → w ≠ [] → (∀ c, w.head? = some c → ¬ Digit c) → (∀ c ∈ w, NameCh c) → NameEnd s → Toks ts s →
      Toks (.word w :: ts) (g ++ (w ++ s))
  | int {g d ts s} : Gap g → Digits d → d ≠ [] → d.length ≤ 9 → NumEnd s → Toks ts s → Toks (.int (dec d) :: ts) (g ++ (d ++ s))
  | num {g t r ts s} : Gap g → Numeral t r → t.length < 255 → NumEnd s → Toks ts s → Toks (.num r :: ts) (g ++ (t ++ s))
  | sign {g c ts s} : Gap g → c = '-' ∨ c = '{' ∨ c = '}' → Toks ts s → Toks (.sign c :: ts) (g ++ c :: s)
  | str {g t b ts s} : Gap g → Lit t b → Toks ts s → Toks (.str t :: ts) (g ++ '"' :: (b ++ '"' :: s))

/-- A key word. -/
def kw (s : String) : TTok := .word s.toList

/-! ## Cells -/

inductive Mark where
  | bold | italic | underline | normal | left | center | right | decimal
  deriving DecidableEq

def Mark.name : Mark → String
  | .bold => "BOLD"
  | .italic => "ITALIC"
  | .underline => "UNDERLINE"
  | .normal => "NORMAL"
  | .left => "LEFT"
  | .center => "CENTER"
  | .right => "RIGHT"
  | .decimal => "DECIMAL"

/-- A text or a formula and what is said of its form. -/
structure SCell where
  formula : Bool
  text : List Char
  marks : List Mark
  deriving DecidableEq

def SCell.toks (c : SCell) : List TTok :=
  (if c.formula then [kw "LEC"] else []) ++ .str c.text :: c.marks.map fun m => kw m.name

/-- A font is set by its word until it is reset by `NORMAL`. -/
def hasFont (m : Mark) (ms : List Mark) : Bool := (ms.filter fun x => decide (x = m ∨ x = .normal)).getLast? = some m

def Mark.align? : Mark → Option Nat
  | .center => some 8
  | .left => some 16
  | .right => some 32
  | .decimal => some 64
  | _ => none

/-- The form of a cell: the last alignment (`dflt` if there is none) and the fonts. -/
def formOf (dflt : Nat) (ms : List Mark) : Nat :=
  ((ms.filterMap Mark.align?).getLast?.getD dflt) + ((if hasFont .bold ms then 1 else 0) + (if hasFont .italic ms then 2 else 0) +
    (if hasFont .underline ms then 4 else 0))

/-- `v` is `u` without a quote in front and without a quote at the end. -/
def Stripped (u v : List Char) : Prop :=
  ∃ a b, u = a ++ (v ++ b) ∧ (a = ['"'] ∨ (a = [] ∧ u.head? ≠ some '"')) ∧ (b = ['"'] ∨ (b = [] ∧ v.getLast? ≠ some '"'))

/-! ## Lines -/

inductive GMark where
  | laxis | raxis | line | scatter | bar
  deriving DecidableEq

def GMark.name : GMark → String
  | .laxis => "LAXIS"
  | .raxis => "RAXIS"
  | .line => "GRLINE"
  | .scatter => "GRSCATTER"
  | .bar => "GRBAR"

def GMark.right? : GMark → Option Bool
  | .laxis => some false
  | .raxis => some true
  | _ => none

def GMark.graph? : GMark → Option Nat
  | .line => some 0
  | .scatter => some 1
  | .bar => some 2
  | _ => none

/-- The last axis, left if there is none. -/
def rightOf (gs : List GMark) : Bool := (gs.filterMap GMark.right?).getLast?.getD false

/-- The last kind of graph, a line if there is none. -/
def graphOf (gs : List GMark) : Nat := (gs.filterMap GMark.graph?).getLast?.getD 0

inductive Plain where
  | sep | mode | date | files
  deriving DecidableEq

def Plain.name : Plain → String
  | .sep => "LINE"
  | .mode => "MODE"
  | .date => "DATE"
  | .files => "FILES"

def Plain.code : Plain → Nat
  | .sep => 111
  | .mode => 106
  | .date => 116
  | .files => 105

inductive SLine where
  | cells (cs : List SCell) (gs : List GMark)
  | title (c : SCell) (gs : List GMark)
  | plain (k : Plain) (gs : List GMark)

def gtoks (gs : List GMark) : List TTok := gs.map fun g => kw g.name

def SLine.toks : SLine → List TTok
  | .cells cs gs => cs.flatMap SCell.toks ++ gtoks gs
  | .title c gs => kw "TITLE" :: (c.toks ++ gtoks gs)
  | .plain k gs => kw k.name :: gtoks gs

/-! ## Entries -/

inductive Lang where
  | english | dutch | french
  deriving DecidableEq

def Lang.name : Lang → String
  | .english => "ENGLISH"
  | .dutch => "DUTCH"
  | .french => "FRENCH"

def Lang.code : Lang → Nat
  | .english => 100
  | .dutch => 101
  | .french => 102

inductive Setting where
  | box | axis | xgrid | ygrid
  deriving DecidableEq

def Setting.name : Setting → String
  | .box => "BOX"
  | .axis => "AXIS"
  | .xgrid => "XGRID"
  | .ygrid => "YGRID"

inductive Bound where
  | ymin | ymax | zmin | zmax
  deriving DecidableEq

def Bound.name : Bound → String
  | .ymin => "YMIN"
  | .ymax => "YMAX"
  | .zmin => "ZMIN"
  | .zmax => "ZMAX"

inductive Side where
  | left | center | right
  deriving DecidableEq

def Side.name : Side → String
  | .left => "LEFT"
  | .center => "CENTER"
  | .right => "RIGHT"

def Side.code : Side → Int
  | .left => 0
  | .center => 1
  | .right => 2

/-- What may be said of a table; bounds are numbers (with or without a sign) or `na`. -/
inductive SEntry where
  | lang (l : Lang)
  | div (cs : List SCell)
  | set (s : Setting) (n : Nat)
  | bound (b : Bound) (neg : Bool) (r : Rat)
  | nobound (b : Bound)
  | align (a : Side)
  | line (l : SLine)

def SEntry.toks : SEntry → List TTok
  | .lang l => [kw l.name]
  | .div cs => kw "DIV" :: cs.flatMap SCell.toks
  | .set s n => [kw s.name, .int n]
  | .bound b neg r => kw b.name :: ((if neg then [.sign '-'] else []) ++ [.num r])
  | .nobound b => [kw b.name, kw "na"]
  | .align a => [kw "ALIGN", kw a.name]
  | .line l => .sign '-' :: l.toks

structure TDef where
  name : List Char
  dim : Option Nat
  entries : List SEntry

/-- The number of columns. -/
def TDef.cols (d : TDef) : Nat := d.dim.getD 2

def dimToks : Option Nat → List TTok
  | none => []
  | some n => [kw "DIM", .int n]

def TDef.toks (d : TDef) : List TTok :=
  .word d.name :: .sign '{' :: (dimToks d.dim ++ (d.entries.flatMap SEntry.toks ++ [.sign '}']))

/-- A text of tables. -/
def TblsLaid (defs : List TDef) (s : List Char) : Prop := Toks (defs.flatMap TDef.toks) s

/-- Names of tables: none of the key words. -/
structure TblName (w : List Char) : Prop extends ObjName w where
  free : ∀ k ∈ reserved, k.toList ≠ w

/-- There is a cell for each column; a title is a text. -/
def SEntry.Fits (cols : Nat) : SEntry → Prop
  | .div cs => cs.length = cols
  | .line (.cells cs _) => cs.length = cols
  | .line (.title c _) => c.formula = false
  | _ => True

structure TDef.Wf (d : TDef) : Prop where
  name : TblName d.name
  cols : 1 ≤ d.cols ∧ d.cols < 2 ^ 15
  fits : ∀ e ∈ d.entries, e.Fits d.cols

/-! ## Meaning -/

/-- The last entry of a kind. -/
def lastE {α : Type} (f : SEntry → Option α) (es : List SEntry) : Option α := (es.filterMap f).getLast?

def SEntry.lang? : SEntry → Option Lang
  | .lang l => some l
  | _ => none

def SEntry.div? : SEntry → Option (List SCell)
  | .div cs => some cs
  | _ => none

def SEntry.set? (s : Setting) : SEntry → Option Nat
  | .set s' n => if s' = s then some n else none
  | _ => none

/-- A bound: `none` for `na`. -/
def SEntry.bound? (b : Bound) : SEntry → Option (Option Rat)
  | .bound b' neg r => if b' = b then some (some (if neg then -r else r)) else none
  | .nobound b' => if b' = b then some none else none
  | _ => none

def SEntry.align? : SEntry → Option Side
  | .align a => some a
  | _ => none

def SEntry.line? : SEntry → Option SLine
  | .line l => some l
  | _ => none

/-- A number stored in one byte. -/
def Wraps (n : Nat) (b : Int) : Prop := -128 ≤ b ∧ b ≤ 127 ∧ (256 : Int) ∣ (n : Int) - b

/-- `r` has at most six decimals and is as near to `q` as such a number can be. -/
def Near6 (q r : Rat) : Prop := (∃ n : Int, r = n / 10 ^ 6) ∧ |q - r| ≤ 1 / (2 * 10 ^ 6)

/-- What is left of a bound that is written with six decimals and read again. -/
def RestoredB (number : Dbl → Bool) (missing v w : Dbl) : Prop :=
  (number v = false ∧ w = missing) ∨
    (number v = true ∧ ∃ q r x y, v = .num q ∧ w = .num y ∧ Near6 q r ∧ NearestD r x ∧ NearestF x y)

end Written
end Asc
end Iode
