import Verif.Spec.LecLex
import Verif.Model.Period
import Mathlib.Data.List.Chain

/-!
# Texts of comments, lists and identities, as described to users

Each object is a name and a string; lines of strings are at most 60 characters long.  Independent of Model/AscText.lean.
-/
namespace Iode
namespace Asc
namespace Written
open Lec.Written

/-! ## Lines -/

/-- White space within texts. -/
def Blank (c : Char) : Prop := White c ∨ c.toNat = 13

instance (c : Char) : Decidable (Blank c) := inferInstanceAs (Decidable (_ ∨ _))

/-- A line may end behind these characters. -/
def Sep (c : Char) : Prop := c ∈ [';', ',', '*', '+', '-', '/', ')', ' ']

instance (c : Char) : Decidable (Sep c) := inferInstanceAs (Decidable (_ ∈ _))

/-- The lines of a text: white space in front of a line is dropped; a line that is not the last one is as long as possible
    but has at most `lg` characters and ends behind a separator; when there is no separator (behind the first character) it has
    `lg` characters. -/
inductive Lines (lg : Nat) : List Char → List (List Char) → Prop where
  | none {b} : (∀ x ∈ b, Blank x) → Lines lg b []
  | last {b c l} : (∀ x ∈ b, Blank x) → ¬ Blank c → l.length + 1 ≤ lg → Lines lg (b ++ c :: l) [c :: l]
  | sep {b c l d r ls} : (∀ x ∈ b, Blank x) → ¬ Blank c → Sep d → l.length + 2 ≤ lg → lg < l.length + 2 + r.length →
      (∀ x ∈ r.take (lg - (l.length + 2)), ¬ Sep x) → Lines lg r ls →
      Lines lg (b ++ c :: (l ++ d :: r)) ((c :: (l ++ [d])) :: ls)
  | hard {b c l r ls} : (∀ x ∈ b, Blank x) → ¬ Blank c → l.length + 1 = lg → r ≠ [] → (∀ x ∈ l, ¬ Sep x) → Lines lg r ls →
      Lines lg (b ++ c :: (l ++ r)) ((c :: l) :: ls)

/-- A text is cut into lines unless it has several lines already. -/
def Wrapped (lg : Nat) (t u : List Char) : Prop :=
  ('\n' ∈ t ∧ u = t) ∨ ('\n' ∉ t ∧ ∃ ls, Lines lg t ls ∧ u = List.intercalate ['\n'] ls)

/-! ## Strings -/

def Letter (c : Char) : Prop := Lower c ∨ Upper c

instance (c : Char) : Decidable (Letter c) := inferInstanceAs (Decidable (_ ∨ _))

/-- The content of a string and what is between the quotes.  Quotes and backslashes need a backslash, `^` needs one in front of
    letters and `[`. -/
inductive Lit : List Char → List Char → Prop where
  | nil : Lit [] []
  | plain {c t b} : c ≠ '"' → c ≠ '\\' → c ≠ '^' → c.toNat ≠ 9 → Lit t b → Lit (c :: t) (c :: b)
  | esc {c t b} : c = '"' ∨ c = '\\' ∨ c = '^' ∨ c = '\'' → Lit t b → Lit (c :: t) ('\\' :: c :: b)
  | newline {t b} : Lit t b → Lit ('\n' :: t) ('\\' :: 'n' :: b)
  | caret {t b} : (∀ c, b.head? = some c → ¬ Letter c ∧ c ≠ '[') → Lit t b → Lit ('^' :: t) ('^' :: b)

/-- No `^` is in front of a letter or of `[`. -/
def Carets (t : List Char) : Prop := t.IsChain fun a b => a = '^' → ¬ Letter b ∧ b ≠ '['

/-- The characters of texts that files hand on: no null character, no tab, no return, no end of file mark. -/
def Carried (t : List Char) : Prop := ∀ c ∈ t, c.toNat ≠ 0 ∧ c.toNat ≠ 9 ∧ c.toNat ≠ 13 ∧ c.toNat ≠ 26

/-- A text in one line. -/
def oneLine (t : List Char) : List Char := t.map fun c => if c = '\n' then ' ' else c

/-- The characters that are seen. -/
def ink (t : List Char) : List Char := t.filter fun c => decide (¬ Blank c)

/-- Names: letters, digits and underscores, not beginning with a digit, at most 20 characters. -/
structure ObjName (w : List Char) : Prop where
  ne : w ≠ []
  head : ∀ c, w.head? = some c → ¬ Digit c
  all : ∀ c ∈ w, NameCh c
  short : w.length ≤ 20

/-- A text of objects: names and contents of strings. -/
inductive TLaid : List (List Char × List Char) → List Char → Prop where
  | nil {g} : Gap g → TLaid [] g
  | obj {g w g' t b r s} : Gap g → ObjName w → Gap g' → Lit t b → TLaid r s →
      TLaid ((w, t) :: r) (g ++ (w ++ (g' ++ '"' :: (b ++ '"' :: s))))

/-- Names are as they are written, or in upper case. -/
def keyOf (up : Bool) (w : List Char) : List Char := if up then w.map toUpperC else w

/-- What a name stands for in a list where later definitions replace earlier ones. -/
def lastDef {α : Type} (up : Bool) (defs : List (List Char × α)) (k : List Char) : Option α :=
  ((defs.filter fun e => decide (keyOf up e.1 = k)).getLast?).map (·.2)

end Written
end Asc
end Iode
