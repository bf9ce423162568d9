import Mathlib.Algebra.BigOperators.Group.Finset.Basic
import Mathlib.Algebra.Order.Field.Basic

/-!
# What estimating a block of linear equations means

`y i t` is the left hand side of equation `i` in period `t`; the right hand side is `a i t + Σ c k * x i k t`.
-/
namespace Iode.Spec.Estim

open Finset

variable {K : Type} [Field K] [LinearOrder K]

/-- A block of linear equations. -/
structure Block (K : Type) where
  neq : Nat
  nc : Nat
  T : Nat
  y : Nat → Nat → K
  a : Nat → Nat → K
  x : Nat → Nat → Nat → K

/-- The residuals. -/
def resid (b : Block K) (c : Nat → K) (i t : Nat) : K := b.y i t - (b.a i t + ∑ k ∈ range b.nc, c k * b.x i k t)

/-- The sum of the squares of the residuals of all the equations. -/
def ssr (b : Block K) (c : Nat → K) : K := ∑ i ∈ range b.neq, ∑ t ∈ range b.T, resid b c i t ^ 2

/-- The weighted sum of the products of the residuals of all pairs of equations, after `P` (a projection on instruments) has been applied
    to them. -/
def crit (b : Block K) (w : Nat → Nat → K) (P : (Nat → K) → Nat → K) (c : Nat → K) : K :=
  ∑ i ∈ range b.neq, ∑ j ∈ range b.neq, w i j * ∑ t ∈ range b.T, P (resid b c i) t * P (resid b c j) t

/-- No other choice of the free coefficients gives a smaller value. -/
def Least (free : Nat → Prop) (f : (Nat → K) → K) (c : Nat → K) : Prop :=
  ∀ c', (∀ k, ¬ free k → c' k = c k) → f c ≤ f c'

/-- The columns of the free coefficients are independent, after the projection. -/
def Independent (free : Nat → Prop) (b : Block K) (P : (Nat → K) → Nat → K) : Prop :=
  ∀ v : Nat → K, (∀ k, ¬ free k → v k = 0) →
    (∀ i, i < b.neq → ∀ t, t < b.T → P (fun s => ∑ k ∈ range b.nc, v k * b.x i k s) t = 0) → ∀ k, k < b.nc → v k = 0

/-- The residuals of the equations are independent: none is a combination of the others. -/
def Distinct (b : Block K) (u : Nat → Nat → K) : Prop :=
  ∀ v : Nat → K, (∀ t, t < b.T → ∑ i ∈ range b.neq, v i * u i t = 0) → ∀ i, i < b.neq → v i = 0

/-- The covariances of the residuals of the equations. -/
def cov (b : Block K) (u : Nat → Nat → K) (i j : Nat) : K := (∑ t ∈ range b.T, u i t * u j t) / b.T

/-- `P v` is the regression of `v` on the `m` series `z`: a combination of them, the rest being orthogonal to each of them. -/
def Fit (T m : Nat) (z : Nat → Nat → K) (P : (Nat → K) → Nat → K) : Prop :=
  ∀ v : Nat → K, (∃ l : Nat → K, ∀ t, P v t = ∑ i ∈ range m, l i * z t i) ∧
    ∀ i, i < m → ∑ t ∈ range T, z t i * (v t - P v t) = 0

end Iode.Spec.Estim
