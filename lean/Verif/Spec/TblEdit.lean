import Verif.Model.TblEdit
import Verif.Spec.LecReal

/-!
# What a cell shows, and products
-/
namespace Iode.TblEdit

open Iode.Lec

/-- The cell shows `y` at position `t`: the value of its formula divided by the value of its divisor. -/
def Displays (A : Arith (Option ℝ)) (E : Env (Option ℝ)) (c : Cell) (t : Int) (y : ℝ) : Prop :=
  ∃ u, evalText A E [] c.lec t = .ok (some u) ∧
    if c.div = [] then y = u else ∃ d, evalText A E [] c.div t = .ok (some d) ∧ d ≠ 0 ∧ y * d = u

/-- Decimal numbers in formulas are exact. -/
def ExactCst (A : Arith (Option ℝ)) : Prop := ∀ (a : Int) (b : Nat), A.ofReal a b = some ((a : ℝ) / (b : ℝ))

/-- `r` is `v` rounded to 8 decimals. -/
def Rounded (v : Rat) (r : ℝ) : Prop := (∃ n : Int, r = (n : ℝ) / 10 ^ 8) ∧ |r - (v : ℝ)| ≤ 1 / 2 / 10 ^ 8

end Iode.TblEdit
