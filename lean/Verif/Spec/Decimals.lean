import Mathlib.Algebra.Order.Field.Rat

/-!
# Significant digits

Independent of the functions that print and read numbers (`Model/Printf.lean`).
-/
namespace Iode
namespace Decimals

/-- `q` can be written with `P` significant digits in base `b`. -/
def Short (b P : Nat) (q : Rat) : Prop := ∃ (m e : Int), |m| < (b : Int) ^ P ∧ q = (m : Rat) * (b : Rat) ^ e

/-- `r` is a number of `P` significant digits in base `b`, and none is nearer to `q`. -/
def Nearest (b P : Nat) (q r : Rat) : Prop := Short b P r ∧ ∀ s, Short b P s → |q - r| ≤ |q - s|

end Decimals
end Iode
