import Verif.Model.RepFn
import Verif.Spec.Expand
import Verif.Spec.LstCalc

/-!
# What the functions of reports give
-/
namespace Iode.RepFn

/-- The first place of a text in another one. -/
def FirstAt (s t a b : Text) : Prop := t = a ++ s ++ b ∧ ∀ a' b', t = a' ++ s ++ b' → a.length ≤ a'.length

/-- Every place replaced, from left to right, none overlapping the one before. -/
inductive Replaced (s r : Text) : Text → Text → Prop
  | stop {t} : ¬ s <:+: t → Replaced s r t t
  | step {t a b out} : FirstAt s t a b → Replaced s r b out → Replaced s r t (a ++ r ++ out)

/-- The characters of a format that stand for digits. -/
def Code (c : Char) : Prop := c = '9' ∨ c = 'x' ∨ c = 'X' ∨ c = '0'

instance (c : Char) : Decidable (Code c) := inferInstanceAs (Decidable (_ ∨ _))

/-- The number is put from the right at the places of the codes; `0` is filled with zeros, the other codes with blanks. -/
def Formatted (fmt digits out : Text) : Prop :=
  out.length = fmt.length ∧ ∀ i c, fmt[i]? = some c →
    out[i]? = if Code c then
        some ((digits.reverse[(fmt.drop (i + 1)).countP fun d => decide (Code d)]?).getD (if c = '0' then '0' else ' '))
      else some c

/-- The loop of the manual (doc/source/reports_functions.rst, `@vtake`): take the first element, drop it, go on while there are elements. -/
def visit (seps : Text) : Nat → Text → Res (List Text)
  | 0, _ => .err
  | f + 1, list => (vtake seps [['1'], list]).bind fun e => (vdrop seps [['1'], list]).bind fun l => (vcount seps [l.getD []]).bind fun n =>
    if n = some ['0'] then .ok [e.getD []] else (visit seps f (l.getD [])).bind fun es => .ok (e.getD [] :: es)

end Iode.RepFn
