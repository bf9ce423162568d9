import Verif.Model.LstCalc
import Verif.Spec.Args
import Mathlib.Data.List.Sort

/-!
# What the calculus with lists gives
-/
namespace Iode.LstCalc

open Iode.Args (Text)

/-- The names in `out` are those of `l` that satisfy `p`, once each, in the order in which they come first in `l`. -/
def Firsts (l : List Text) (p : Text → Prop) (out : List Text) : Prop :=
  out.Pairwise (fun x y => l.idxOf x < l.idxOf y) ∧ ∀ w, w ∈ out ↔ w ∈ l ∧ p w

/-- The four operations. -/
inductive Gives : Char → List Text → List Text → List Text → Prop
  | union {a b out} : Firsts (a ++ b) (fun _ => True) out → Gives '+' a b out
  | inter {a b out} : Firsts a (· ∈ b) out → Gives '*' a b out
  | dif {a b} : Gives '-' a b (a.filter (· ∉ b))
  | times {a b} : Gives 'x' a b (a.flatMap fun x => b.map (x ++ ·))

/-- The list `name` exists and means the words `ws`. -/
def Holds (file : Text → Option Text) (st : Lists.Store) (name : Text) (ws : List Text) : Prop :=
  ∃ t, st.find (toKey .lists name) = some t ∧ Args.Fit Args.seps t ∧ Args.Means (world file st) 10 (Args.pieces Args.seps t) ws

/-- The combinations of a pattern with two dimensions, row by row. -/
def combos (pat : Text) (xs ys : List Text) : List Text :=
  xs.flatMap fun x => ys.map fun y => (pat.flatMap fun c => if c = 'x' then x else [c]).flatMap fun c => if c = 'y' then y else [c]

end Iode.LstCalc
