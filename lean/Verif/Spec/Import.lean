import Verif.Spec.Ascii
import Verif.Spec.AscText

/-!
# Importing with rules, as described to users

A file of rules has one rule per line: a pattern and how the names it matches are changed.  Independent of Model/Import.lean.
-/
namespace Iode
namespace Imp
namespace Written
open Lec.Written Asc.Written Printf

/-- The words of a line, between blanks and tabs. -/
def words (l : List Char) : List (List Char) := (l.splitOnP fun c => c = ' ' || c = '\t').filter (· ≠ [])

/-- The rule of a line: lines of two words. -/
def lineRule (l : List Char) : List (List Char × List Char) :=
  match words l with
  | [p, r] => [(p, r)]
  | _ => []

/-- A line with something on it: no new line, the last character is no white space. -/
def Inked (l : List Char) : Prop := '\n' ∉ l ∧ ∃ c, l.getLast? = some c ∧ ¬ Blank c

/-- White space at the end of a line. -/
def Trail (b : List Char) : Prop := ∀ c ∈ b, Blank c ∧ c ≠ '\n'

/-- A file of rules: no line is empty, none is longer than 254 characters. -/
inductive RuleFile : List (List Char × List Char) → List Char → Prop where
  | nil : RuleFile [] []
  | last {l b} : Inked l → Trail b → (l ++ b).length ≤ 254 → RuleFile (lineRule l) (l ++ b)
  | line {l b rs s} : Inked l → Trail b → (l ++ b).length ≤ 254 → RuleFile rs s →
      RuleFile (lineRule l ++ rs) (l ++ (b ++ '\n' :: s))

/-- How a rule changes a name: `+` takes the next character, `-` leaves it out, other characters are written; it ends when
    there is no next character. -/
def rename : List Char → List Char → List Char
  | [], _ => []
  | c :: r, w =>
    if c = '+' then
      match w with
      | [] => []
      | x :: w => x :: rename r w
    else if c = '-' then
      match w with
      | [] => []
      | _ :: w => rename r w
    else c :: rename r w

/-- The rule used when there is no other one. -/
def defaultRule : List Char × List Char := (['*'], "++++++++++++++++++++".toList)

/-- The rules: those of the file, the usual one when there is no file or no rule in it. -/
inductive RuleSource : List (List Char × List Char) → Option (List Char) → Prop where
  | none : RuleSource [defaultRule] none
  | empty {s} : RuleFile [] s → RuleSource [defaultRule] (some s)
  | file {rs s} : rs ≠ [] → RuleFile rs s → RuleSource rs (some s)

/-- A file of rules with a line that has nothing but white space on it, behind lines with something on them. -/
inductive BlankLine : List Char → Prop where
  | last {b} : b ≠ [] → Trail b → b.length ≤ 254 → BlankLine b
  | this {b s} : Trail b → b.length ≤ 254 → BlankLine (b ++ '\n' :: s)
  | later {l b s} : Inked l → Trail b → (l ++ b).length ≤ 254 → BlankLine s → BlankLine (l ++ (b ++ '\n' :: s))

/-- What the rules make of a name, `fits` telling whether a name matches a pattern: the first rule that matches is used, the name
    is cut after 20 characters; without such a rule the object is left out. -/
inductive Chosen (fits : List Char → List Char → Prop) (w : List Char) :
    List (List Char × List Char) → Option (List Char) → Prop where
  | none : Chosen fits w [] none
  | this {p r rs} : fits p w → Chosen fits w ((p, r) :: rs) (some ((rename r w).take 20))
  | later {p r rs o} : ¬ fits p w → Chosen fits w rs o → Chosen fits w ((p, r) :: rs) o

/-- The objects that are left, with their new names. -/
inductive Renamed {α : Type} (fits : List Char → List Char → Prop) (rules : List (List Char × List Char)) :
    List (List Char × α) → List (List Char × α) → Prop where
  | nil : Renamed fits rules [] []
  | drop {w v l l'} : Chosen fits w rules none → Renamed fits rules l l' → Renamed fits rules ((w, v) :: l) l'
  | keep {w v n l l'} : Chosen fits w rules (some n) → Renamed fits rules l l' → Renamed fits rules ((w, v) :: l) ((n, v) :: l')

/-- Names in files: letters, digits and underscores, not beginning with a digit, at most 79 characters. -/
structure LongName (w : List Char) : Prop where
  ne : w ≠ []
  head : ∀ c, w.head? = some c → ¬ Digit c
  all : ∀ c ∈ w, NameCh c
  short : w.length ≤ 79

/-- A text of variables behind the sample; `na` and `sample` are no names. -/
inductive VLaid (missing : Dbl) (rnd : Rat → Dbl) : List (List Char × List Dbl) → List Char → Prop where
  | nil {g} : Gap g → VLaid missing rnd [] g
  | var {g w vs r s s'} : Gap g → LongName w → w ≠ "na".toList → w ≠ "sample".toList → NameEnd s → Vals missing rnd vs s s' →
      VLaid missing rnd r s' → VLaid missing rnd ((w, vs) :: r) (g ++ (w ++ s))

/-- A whole text: the sample is written `2000Y1 2010Y1`. -/
inductive SLaid (missing : Dbl) (rnd : Rat → Dbl) (start stop : List Char) : List (List Char × List Dbl) → List Char → Prop where
  | mk {g0 g1 g2 vars s} : Gap g0 → Gap g1 → g1 ≠ [] → Gap g2 → g2 ≠ [] → NumEnd s → VLaid missing rnd vars s →
      SLaid missing rnd start stop vars (g0 ++ ("sample".toList ++ (g1 ++ (start ++ (g2 ++ (stop ++ s))))))

/-- A text without the blanks at its end. -/
def Stripped (t u : List Char) : Prop := ∃ b, t = u ++ b ∧ (∀ c ∈ b, c.toNat ≤ 32) ∧ ∀ c, u.getLast? = some c → 32 < c.toNat

/-- A text of comments: names and strings; blanks at the end of a comment are dropped. -/
inductive CLaid : List (List Char × List Char) → List Char → Prop where
  | nil {g} : Gap g → CLaid [] g
  | cmt {g w g' t u b r s} : Gap g → LongName w → Gap g' → Lit t b → Stripped t u → CLaid r s →
      CLaid ((w, u) :: r) (g ++ (w ++ (g' ++ '"' :: (b ++ '"' :: s))))

/-- What cannot be a name: nothing, what begins with a digit, and what has a visible character in it that is neither a letter, nor
    a digit, an underscore or `#`. -/
def Invalid (n : List Char) : Prop :=
  n = [] ∨ (∃ c, n.head? = some c ∧ Digit c) ∨ ∃ c ∈ n, 32 < c.toNat ∧ ¬ NameCh c ∧ c ≠ '#'

end Written
end Imp
end Iode
