import Verif.Spec.Import

/-!
# Exported tables, as described to users

How other programs read the files: CSV is a line for each row, a separator behind each cell; DIF is pairs of lines.  A table of
variables has a row for each variable that is chosen by the rules: name, comment and values.  Independent of Model/Export.lean.
-/
namespace Iode
namespace Exp
namespace Written
open Lec.Written Asc.Written Decimals Printf

/-! ## Reading CSV -/

/-- A text without the blanks in front and behind. -/
def tidy (t : List Char) : List Char :=
  ((t.dropWhile fun c => c.toNat ≤ 32).reverse.dropWhile fun c => c.toNat ≤ 32).reverse

/-- The cells of a line: a separator is behind each of them. -/
def cells (c : Char) (l : List Char) : List (List Char) := (l.splitOn c).dropLast.map tidy

/-- The lines: a new line is behind each of them. -/
def lines (t : List Char) : List (List Char) := (t.splitOn '\n').dropLast

/-- A table: the separator is behind each cell. -/
def table (c : Char) (t : List Char) : List (List (List Char)) := (lines t).map (cells c)

/-- A table: the separator is between the cells. -/
def between (c : Char) (t : List Char) : List (List (List Char)) := (lines t).map fun l => (l.splitOn c).map tidy

/-! ## Reading DIF -/

/-- A cell of DIF. -/
inductive Cell where
  | text (t : List Char)
  | num (t : List Char)
  deriving DecidableEq, Repr

/-- The text between the first and the last character. -/
def inner (t : List Char) : List Char := t.tail.dropLast

/-- The pairs of lines behind `DATA`: the cells in front of the next row, and the rows. -/
def difRows : List (List Char) → Option (List Cell × List (List Cell))
  | n :: s :: r =>
    if n = "-1,0".toList then
      if s = "EOD".toList then (if r = [] then some ([], []) else none)
      else if s = "BOT".toList then (difRows r).map fun p => ([], p.1 :: p.2)
      else none
    else if n = "1,0".toList then (difRows r).map fun p => (Cell.text (tidy (inner s)) :: p.1, p.2)
    else if n.take 2 = "0,".toList ∧ s = "V".toList then (difRows r).map fun p => (Cell.num (tidy (n.drop 2)) :: p.1, p.2)
    else none
  | _ => none

/-- A DIF file: the number of columns, the number of rows, and the rows. -/
def readDif (t : List Char) : Option (List Char × List Char × List (List Cell)) :=
  match lines t with
  | a :: b :: c :: d :: e :: f :: g :: h :: i :: j :: k :: l :: r =>
    if [a, b, c, d, f, g, i, j, k, l] = ["TABLE", "0,1", "\"\"", "VECTORS", "\"\"", "TUPLES", "\"\"", "DATA", "0,0", "\"\""].map String.toList ∧
        e.take 2 = "0,".toList ∧ h.take 2 = "0,".toList then
      match difRows r with
      | some ([], rows) => some (e.drop 2, h.drop 2, rows)
      | _ => none
    else none
  | _ => none

/-! ## What is exported -/

/-- A number with a sign. -/
def Signed (t : List Char) (r : Rat) : Prop := ∃ u, Numeral u |r| ∧ t = if r < 0 then '-' :: u else u

/-- The text of a value: the next number of `digits` decimal digits, `missing` for a missing value.  Numbers below `limit` stand for missing
    values. -/
inductive Shown (digits : Nat) (limit : Rat) (missing : List Char) : Dbl → List Char → Prop where
  | num {q r t} : limit ≤ q → Nearest 10 digits q r → Signed t r → Shown digits limit missing (.num q) t
  | inf : Shown digits limit missing .inf "inf".toList
  | low {q} : q < limit → Shown digits limit missing (.num q) missing
  | ninf : Shown digits limit missing .ninf missing
  | nan : Shown digits limit missing .nan missing

/-- A row: name, comment and the texts of the values. -/
structure Row where
  name : List Char
  note : List Char
  vals : List (List Char)

/-- The table of CSV. -/
def csvTable (periods : List (List Char)) (rows : List Row) : List (List (List Char)) :=
  ("code".toList :: "comment".toList :: periods) :: rows.map fun r => r.name :: r.note :: r.vals

/-- The rotated table: a row for each period. -/
def rotTable (periods : List (List Char)) (rows : List Row) : List (List (List Char)) :=
  ([] :: rows.map Row.name) ::
    (List.range periods.length).map fun j => periods.getD j [] :: rows.map fun r => r.vals.getD j []

/-- The table of DIF. -/
def difTable (periods : List (List Char)) (rows : List Row) : List (List Cell) :=
  (Cell.text "CODE".toList :: Cell.text "COMMENT".toList :: periods.map Cell.text) ::
    rows.map fun r => Cell.text r.name :: Cell.text r.note :: r.vals.map Cell.num

/-- The heading of a period in `save_csv`: years are written as numbers. -/
def label (p : Period) : List Char := if p.periodicity = 'Y' then intToChars p.year else p.toChars

/-- The text of a value with another decimal point. -/
def Pointed (digits : Nat) (limit : Rat) (missing : List Char) (d : Char) (v : Dbl) (t : List Char) : Prop :=
  ∃ u, Shown digits limit missing v u ∧ ((∃ q, v = .num q ∧ limit ≤ q) ∧ t = u.map (fun c => if c = '.' then d else c) ∨
    ¬ (∃ q, v = .num q ∧ limit ≤ q) ∧ t = u)

/-- What is chosen of the settings of the user: `usual` when nothing is given, what is given when it is a word of at most 10
    characters. -/
def Choice (usual given t : List Char) : Prop :=
  (given = [] ∧ t = usual) ∨ (given ≠ [] ∧ given.length ≤ 10 ∧ (∀ c ∈ given, 32 < c.toNat) ∧ t = given)

/-- A separator: a visible character that is in no name, number or period. -/
def Mark (c : Char) : Prop := 32 < c.toNat ∧ ¬ NameCh c ∧ c ∉ ['+', '-', '.']

/-- The row of a variable `e`: new name, name and values; `note w u` tells that `u` is the comment of `w`. -/
def RowOf (note : List Char → List Char → Prop) (limit : Rat) (missing : List Char) (e : List Char × List Char × List Dbl) (r : Row) :
    Prop :=
  r.name = tidy e.1 ∧ note e.2.1 r.note ∧ List.Forall₂ (Shown 8 limit missing) e.2.2 r.vals

end Written
end Exp
end Iode
