import Mathlib.Analysis.SpecialFunctions.Pow.Real
import Mathlib.Analysis.SpecialFunctions.Trigonometric.Inverse
import Mathlib.Analysis.SpecialFunctions.Trigonometric.Arctan
import Mathlib.Data.Real.Archimedean
import Verif.Spec.LecManual

/-!
# LEC over the real numbers

The elementary functions are those of real analysis, outside of their domain they are missing; missing values are
`none`.
-/
namespace Iode.Lec

/-- The primitive operations are those of the real numbers. -/
structure RealMath (A : Arith (Option ℝ)) : Prop extends Exact A where
  exp : ∀ x : ℝ, A.prim .exp (some x) = some (Real.exp x)
  log : ∀ x : ℝ, 0 < x → A.prim .log (some x) = some (Real.log x)
  cos : ∀ x : ℝ, A.prim .cos (some x) = some (Real.cos x)
  sin : ∀ x : ℝ, A.prim .sin (some x) = some (Real.sin x)
  tan : ∀ x : ℝ, Real.cos x ≠ 0 → A.prim .tan (some x) = some (Real.tan x)
  acos : ∀ x : ℝ, A.prim .acos (some x) = if -1 ≤ x ∧ x ≤ 1 then some (Real.arccos x) else none
  asin : ∀ x : ℝ, A.prim .asin (some x) = if -1 ≤ x ∧ x ≤ 1 then some (Real.arcsin x) else none
  atan : ∀ x : ℝ, A.prim .atan (some x) = some (Real.arctan x)
  pow : ∀ x y : ℝ, 0 < x → A.pow (some x) (some y) = some (x ^ y)

/-- The environment in which the variable `x` has the value `v` at position `t`. -/
def Env.set {F : Type} (E : Env F) (x : Name) (t : Int) (v : F) : Env F :=
  { E with var := fun y i => if y = x ∧ i = t then v else E.var y i }

/-- Integer constants, possibly between parentheses. -/
inductive Lit (n : Int) : Expr → Prop where
  | cst : Lit n (.cst (.long n))
  | par {e} : Lit n e → Lit n (.par e)

mutual
/-- The names of variables in an expression. -/
def varNames : Expr → List Name
  | .var x _ _ => [x]
  | .par e => varNames e
  | .bin _ a b => varNames a ++ varNames b
  | .app _ args => varNamesL args
  | _ => []
/-- The same for a list of expressions. -/
def varNamesL : List Expr → List Name
  | [] => []
  | e :: es => varNames e ++ varNamesL es
end

mutual
/-- How often the variable occurs at the current period. -/
def nowCount (x : Name) : Expr → Nat
  | .var y l none => if y = x ∧ l = 0 then 1 else 0
  | .par e => nowCount x e
  | .bin _ a b => nowCount x a + nowCount x b
  | .app _ args => nowCountL x args
  | _ => 0
/-- The same for a list of expressions. -/
def nowCountL (x : Name) : List Expr → Nat
  | [] => 0
  | e :: es => nowCount x e + nowCountL x es
end

/-- At position `u` the expression reads the variable `x` only at the positions up to `u - k`: every occurrence of `x` has a
lag of at least `k` and no date, the functions around are functions of the values, or `l`, `d`, `r`, `dln`, `grt`, `ma` with
a literal lag of at least 1. -/
inductive Back (k : Int) (x : Name) : Expr → Prop where
  | free {e} : x ∉ varNames e → Back k x e
  | var {l} : l ≤ -k → Back k x (.var x l none)
  | par {e} : Back k x e → Back k x (.par e)
  | bin (o) {a b} : Back k x a → Back k x b → Back k x (.bin o a b)
  | fn (f) {args} : (∀ a ∈ args, Back k x a) → Back k x (.app (.fn f) args)
  | tfn {f a} : f.lagged = true → Back k x a → Back k x (.app (.tfn f) [a])
  | tfnLag {f n m a} : f.lagged = true → 1 ≤ n → Lit n m → Back k x a → Back k x (.app (.tfn f) [m, a])

/-- Functions of one argument `f` with a right inverse `g` in LEC: `f(g(r)) = r` whenever `g(r)` is defined. -/
def Fn.onto : Fn → Bool
  | .ln | .expn | .uplus | .uminus | .cos | .sin | .tan => true
  | _ => false

/-- Functions of one argument `f` with a left inverse `g` in LEC: `g(f(u)) = u`. -/
def Fn.oneToOne : Fn → Bool
  | .ln | .expn | .uplus | .uminus | .acos | .asin | .atan => true
  | _ => false

/-- Time functions that can be undone. -/
def TFn.invertible : TFn → Bool
  | .diff | .dln | .grt | .rapp => true
  | _ => false

/-- No call with several arguments at the end of the expression, except between parentheses. -/
inductive NoOpenCall : Expr → Prop where
  | cst (k) : NoOpenCall (.cst k)
  | val (v) : NoOpenCall (.val v)
  | var (x l p) : NoOpenCall (.var x l p)
  | coef (x) : NoOpenCall (.coef x)
  | par (e) : NoOpenCall (.par e)
  | un (f) {e} : NoOpenCall e → NoOpenCall (.app f [e])
  | bin (o) {a b} : NoOpenCall a → NoOpenCall b → NoOpenCall (.bin o a b)

/-- Expressions that can be solved for `x`: `x` occurs once at the current period, under parentheses, the four operations
(the base of a power if `pow`), functions in `fs`, or differences and growth rates; elsewhere it is only lagged. -/
inductive Solvable (fs : Fn → Bool) (pow : Bool) (x : Name) : Expr → Prop where
  | var : Solvable fs pow x (.var x 0 none)
  | par {e} : Solvable fs pow x e → Solvable fs pow x (.par e)
  | left {o a b} : o = .plus ∨ o = .minus ∨ o = .times ∨ o = .divide ∨ (pow = true ∧ o = .exp) → Solvable fs pow x a →
      Back 1 x b → NoOpenCall b → Solvable fs pow x (.bin o a b)
  | right {o a b} : o = .plus ∨ o = .minus ∨ o = .times ∨ o = .divide → Back 1 x a → Solvable fs pow x b →
      NoOpenCall b → Solvable fs pow x (.bin o a b)
  | fn {f a} : fs f = true → Solvable fs pow x a → NoOpenCall a → Solvable fs pow x (.app (.fn f) [a])
  | tfn {f a} : f.invertible = true → Solvable fs pow x a → NoOpenCall a → Solvable fs pow x (.app (.tfn f) [a])
  | tfnLag {f n m a} : f.invertible = true → 1 ≤ n → Lit n m → Solvable fs pow x a → NoOpenCall a →
      Solvable fs pow x (.app (.tfn f) [m, a])

end Iode.Lec
