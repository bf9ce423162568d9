import Verif.Model.SimOrder
import Mathlib.Algebra.Order.Field.Basic
import Mathlib.Algebra.Order.AbsoluteValue.Basic

/-!
# What the order of the equations of a model and its solution should be
-/
namespace Iode.Sim

/-- The table of equations by variable finds the equation that solves a variable. -/
def Endo.Solved (e : Endo) : Prop := ∀ j p : Nat, e.posxk[j]? = some p → e.eqOf p = some j

/-- Equation `i` contains the variable solved by another equation `j`. -/
def DependsOn (e : Endo) (objss : List (List (Option Nat))) (i j : Nat) : Prop :=
  i ≠ j ∧ ∃ objs p, objss[i]? = some objs ∧ some p ∈ objs ∧ e.posxk[j]? = some p

/-- The value of a formula depends only on the variables it names, and not on the present value of the variable with the name
of the equation. -/
def Eqn.Explicit {F : Type} (q : Eqn F) : Prop :=
  ∀ (s s' : Store F) (t : Int), (∀ v u, some v ∈ q.objs → ¬(v = q.own ∧ u = t) → s v u = s' v u) → q.exec s t = q.exec s' t

/-- The same without leads: only values of this and earlier periods matter. -/
def Eqn.Backward {F : Type} (q : Eqn F) : Prop :=
  ∀ (s s' : Store F) (t : Int), (∀ v u, some v ∈ q.objs → u ≤ t → s v u = s' v u) → q.exec s t = q.exec s' t

/-- Exact arithmetic. -/
structure Flo.Exact {K : Type} [Field K] [LinearOrder K] (A : Flo K) : Prop where
  add : ∀ a b, A.add a b = a + b
  sub : ∀ a b, A.sub a b = a - b
  mul : ∀ a b, A.mul a b = a * b
  div : ∀ a b, A.div a b = a / b
  abs : ∀ a, A.abs a = |a|
  lt : ∀ a b, A.lt a b = true ↔ a < b
  eq : ∀ a b, A.eq a b = true ↔ a = b
  rat : ∀ n d, A.rat n d = n / d
  zero : A.isZero 0 = true

/-- `x` is near `y` up to `d`, absolutely or relatively to `y`. -/
def Near {K : Type} [Field K] [LinearOrder K] (d y x : K) : Prop := |y - x| ≤ d * max 1 |y|

/-- The equation holds exactly at `t`. -/
def Eqn.HoldsAt {F : Type} (q : Eqn F) (s : Store F) (t : Int) : Prop := q.exec s t = .ok (s q.own t)

/-- The equation holds up to the threshold divided by the relaxation factor. -/
def Eqn.HoldsWithin {K : Type} [Field K] [LinearOrder K] (q : Eqn K) (eps relax : K) (s : Store K) (t : Int) : Prop :=
  ∃ x, q.exec s t = .ok x ∧ |s q.own t - x| * |relax| ≤ eps * max 1 |s q.own t|

/-- The equation holds up to the threshold divided by the relaxation factor when the other variables in `vs` are replaced by
values that are near up to the threshold. -/
def Eqn.HoldsNearby {K : Type} [Field K] [LinearOrder K] (q : Eqn K) (eps relax : K) (vs : List Nat) (s : Store K)
    (t : Int) : Prop :=
  ∃ m x, (∀ w u, ¬(w ∈ vs ∧ u = t) → m w u = s w u) ∧ (∀ w ∈ vs, Near eps (s w t) (m w t)) ∧
    q.exec m t = .ok x ∧ |s q.own t - x| * |relax| ≤ eps * max 1 |s q.own t|

end Iode.Sim
