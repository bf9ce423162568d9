import Verif.Model.Names
import Mathlib.Algebra.Order.Field.Rat
import Mathlib.Algebra.BigOperators.Group.List.Basic

/-!
# Aggregation of variables by parts of their names
-/
namespace Iode.Aggr

/-- A part of a pattern: between brackets or not, and its characters. -/
structure Part where
  agg : Bool
  cs : List Char

/-- The text of a pattern. -/
def render : List Part → List Char
  | [] => []
  | p :: ps => (if p.agg then '[' else '(') :: p.cs ++ (if p.agg then ']' else ')') :: render ps

/-- The characters of a pattern, with the kind of part they are in. -/
def items (ps : List Part) : List (Bool × Char) := ps.flatMap fun p => p.cs.map (p.agg, ·)

/-- A pattern as the manual describes it: the parts are not empty, and contain no brackets or parentheses. -/
def GoodParts (ps : List Part) : Prop := ∀ p ∈ ps, p.cs ≠ [] ∧ ∀ c ∈ p.cs, c ≠ '(' ∧ c ≠ ')' ∧ c ≠ '[' ∧ c ≠ ']'

/-- The name has the form of the pattern: as many characters, the same ones where the pattern gives one, and not yet the aggregation character
    where the pattern aggregates. -/
def Fits (ch : Char) (is : List (Bool × Char)) (name : Name) : Prop :=
  is.length = name.length ∧ ∀ q ∈ is.zip name, if q.1.2 = '?' then q.1.1 = true → q.2 ≠ ch else q.1.2 = q.2

instance (ch : Char) (is : List (Bool × Char)) (name : Name) : Decidable (Fits ch is name) := by unfold Fits; infer_instance

/-- The name of the aggregate: the aggregation character in the place of those that are aggregated; blanks are left out. -/
def newName (ch : Char) (is : List (Bool × Char)) (name : Name) : Name :=
  (List.zipWith (fun i c => if i.1 = true ∧ i.2 = '?' then ch else c) is name).filter (· ≠ ' ')

/-- The values, at position `t`, of the variables that are aggregated into `n`. -/
def parts (ch : Char) (is : List (Bool × Char)) (src : List (Name × List Rat)) (n : Name) (t : Nat) : List Rat :=
  (src.filter fun e => decide (Fits ch is e.1 ∧ newName ch is e.1 = n)).map fun e => e.2.getD t 0

end Iode.Aggr
