import Mathlib.Algebra.BigOperators.Group.Finset.Basic
import Mathlib.Algebra.Field.Basic

/-!
# What solving a linear system means
-/
namespace Iode.Spec.Linear

variable {K : Type} [Field K]

/-- `x` satisfies the `n` equations `Σ a i j * x j = b i`. -/
def Solves (n : Nat) (a : Nat → Nat → K) (b : Nat → K) (x : Nat → K) : Prop :=
  ∀ i, i < n → ∑ j ∈ Finset.range n, a i j * x j = b i

/-- The columns of the matrix are linearly dependent: some vector other than zero is sent to zero. -/
def Singular (n : Nat) (a : Nat → Nat → K) : Prop :=
  ∃ v : Nat → K, (∃ i, i < n ∧ v i ≠ 0) ∧ Solves n a (fun _ => 0) v

/-- `b` is the inverse of `a`, on both sides. -/
def IsInverse (n : Nat) (a b : Nat → Nat → K) : Prop :=
  (∀ i k, i < n → k < n → ∑ j ∈ Finset.range n, a i j * b j k = if i = k then 1 else 0) ∧
  (∀ i k, i < n → k < n → ∑ j ∈ Finset.range n, b i j * a j k = if i = k then 1 else 0)

end Iode.Spec.Linear
