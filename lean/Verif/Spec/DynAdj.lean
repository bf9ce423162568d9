import Verif.Model.DynAdj
import Verif.Spec.Lec
import Verif.Spec.LecLex
import Verif.Spec.RepFn

/-!
# Texts of formulas that can be put into other formulas
-/
namespace Iode.DynAdj

open Iode.RepFn (FirstAt)
open Iode.Lec Iode.Lec.Written

/-- A text made of these tokens, that does not end with a comment `//` and has no semicolon. -/
inductive Body (rnd : Rat → Rat) : List RTok → Text → Prop where
  | nil {g} : Gap g → Body rnd [] g
  | cons {g txt tok ts s} : Gap g → Item rnd txt tok s → Body rnd ts s → Body rnd (tok :: ts) (g ++ (txt ++ s))

/-- The text is a formula of the priority level `n` that reads as the tree `e`. -/
def Side (rnd : Rat → Rat) (n : Nat) (s : Text) (e : Expr) : Prop := ∃ ts, Body rnd ts s ∧ G false (.lev n) (group ts) [e]

/-- The text has the two sides `l` and `r`, with blanks behind them. -/
def Sides (eq l r : Text) : Prop := ∃ w v, FirstAt [':', '='] eq (l ++ w) (r ++ v) ∧ (∀ c ∈ w ++ v, c.toNat ≤ 32) ∧
  (∀ c, l.getLast? = some c → 32 < c.toNat) ∧ ∀ c, r.getLast? = some c → 32 < c.toNat

/-- A name of a coefficient. -/
def CoefName (w : Text) : Prop := w ≠ [] ∧ (∀ c, w.head? = some c → ¬ Digit c) ∧ ScalarName w ∧ w.length ≤ 20 ∧ ∀ k ∈ keywords, k.1.toList ≠ w

end Iode.DynAdj
