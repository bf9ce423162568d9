import Verif.Spec.Import

/-!
# DIF files, as described to users

A text is cut into elements (words, whole numbers, numbers, the signs `-` and `,`, strings) with gaps between them.  A header tells the
number of columns; behind `BOT` comes the row of headings, the cell in the corner first; each further row begins with the
name of a variable.  A cell with a text is `1,0` and a string, a cell with a value is `0,`, the value and one more element (`V`).  What
is between `-1,0` and the next word that counts is of no importance.  Independent of Model/Dif.lean.
-/
namespace Iode
namespace Dif
namespace Written
open Lec.Written Asc.Written Printf

inductive Tok where
  | word (w : List Char)
  | int (n : Nat)
  | num (r : Rat)
  | sign (c : Char)
  | str (t : List Char)

/-- A text that begins with these elements, and the rest of it. -/
inductive Toks : List Tok → List Char → List Char → Prop where
  | nil {s} : Toks [] s s
  | word {g w ts s s'} : Gap g → w ≠ [] → (∀ c, w.head? = some c → ¬ Digit c) → (∀ c ∈ w, NameCh c) → NameEnd s → Toks ts s s' →
      Toks (.word w :: ts) (g ++ (w ++ s)) s'
  | int {g d ts s s'} : Gap g → Digits d → d ≠ [] → d.length ≤ 9 → NumEnd s → Toks ts s s' → Toks (.int (dec d) :: ts) (g ++ (d ++ s)) s'
  | num {g t r ts s s'} : Gap g → Numeral t r → t.length < 255 → NumEnd s → Toks ts s s' → Toks (.num r :: ts) (g ++ (t ++ s)) s'
  | sign {g c ts s s'} : Gap g → c = '-' ∨ c = ',' → Toks ts s s' → Toks (.sign c :: ts) (g ++ c :: s) s'
  | str {g t b ts s s'} : Gap g → Lit t b → Toks ts s s' → Toks (.str t :: ts) (g ++ '"' :: (b ++ '"' :: s)) s'

/-- A word of the format. -/
def kw (s : String) : Tok := .word s.toList

/-- Elements among which neither this word nor `EOD` is. -/
def Free (k : String) (ts : List Tok) : Prop := ∀ t ∈ ts, t ≠ kw "EOD" ∧ t ≠ kw k

/-! ## Cells -/

def textCell (n : Nat) (t : List Char) : List Tok := [.int 1, .sign ',', .int n, .str t]

def countCell (n : Nat) (x : Tok) : List Tok := [.int 0, .sign ',', .int n, x]

inductive SVal where
  | num (q : Rat)
  | neg (q : Rat)
  | na

def SVal.toks : SVal → List Tok
  | .num q => [.num q]
  | .neg q => [.sign '-', .num q]
  | .na => [kw "na"]

/-- The value, numbers rounded by `rnd`. -/
def SVal.val (missing : Dbl) (rnd : Rat → Dbl) : SVal → Dbl
  | .num q => rnd q
  | .neg q => rnd (-q)
  | .na => missing

def valueCell (v : SVal) (x : Tok) : List Tok := [.int 0, .sign ','] ++ (v.toks ++ [x])

/-! ## Files -/

/-- What is in front of the row of headings: the number of columns is `n`. -/
inductive Head (n : Nat) : List Tok → Prop where
  | mk {j1 j2 j3 x1 x2 m} : Free "VECTORS" j1 → Free "TUPLES" j2 → Free "BOT" j3 →
      Head n (kw "TABLE" :: (j1 ++ kw "VECTORS" :: (countCell n x1 ++ (j2 ++ kw "TUPLES" :: (countCell m x2 ++ (j3 ++ [kw "BOT"]))))))

/-- Rows of one value; the last one is followed by `EOD` or by nothing. -/
inductive Rows : List (List Char × SVal) → List Tok → Prop where
  | last {w v x n j} : Free "BOT" j → Rows [(w, v)] (textCell n w ++ (valueCell v x ++ (j ++ [kw "EOD"])))
  | cut {w v x n j} : Free "BOT" j → Rows [(w, v)] (textCell n w ++ (valueCell v x ++ j))
  | more {w v x n j rs ts} : Free "BOT" j → Rows rs ts → Rows ((w, v) :: rs) (textCell n w ++ (valueCell v x ++ (j ++ kw "BOT" :: ts)))

/-- A file with one period. -/
inductive File (per : List Char) (rs : List (List Char × SVal)) : List Tok → Prop where
  | mk {h ts n t m j} : Head 2 h → Free "BOT" j → Rows rs ts →
      File per rs (h ++ (textCell n t ++ (textCell m per ++ (j ++ kw "BOT" :: ts))))

/-- The beginning of a file with `n` columns and these headings (with the numbers in front of them) behind the one in the corner. -/
inductive Begins (n : Nat) (heads : List (Nat × List Char)) : List Tok → Prop where
  | mk {h k t} : Head n h → Begins n heads (h ++ (textCell k t ++ heads.flatMap fun e => textCell e.1 e.2))

end Written
end Dif
end Iode
