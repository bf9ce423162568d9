import Verif.Model.EstPrep

/-! # The choice of the coefficients: what is chosen -/
namespace Iode.Spec.StepWise

open Iode.EstPrep

variable {K : Type} [Field K] [LinearOrder K]

/-- The scalars `A` are to be estimated, from 0.9; the others among `ns` are fixed at 0. -/
def Configured (ns A : List Name) (m : SMap (Scl K)) : Prop :=
  ∀ x ∈ ns, (x ∈ A → m.find x = some ⟨9 / 10, 1⟩) ∧ (x ∉ A → m.find x = some ⟨0, 0⟩)

/-- The estimation of a combination `A` always gives the test `T A` and the same answer to the condition, `C A`, as long as `Inv` holds;
    `Inv` does not look at the scalars `ns`. -/
structure Repeatable (est : SMap (Scl K) → SMap (Scl K)) (cond : SMap (Scl K) → K) (test : Name) (ns : List Name)
    (Inv : SMap (Scl K) → Prop) (T : List Name → K) (C : List Name → Prop) : Prop where
  other : ∀ m m', Inv m → (∀ x, x ∉ ns → m'.find x = m.find x) → Inv m'
  keep : ∀ m A, Inv m → List.Sublist A ns → 2 ≤ A.length → Configured ns A m → Inv (est m) ∧ ∀ x ∈ ns, ((est m).find x).isSome = true
  test : ∀ m A, Inv m → List.Sublist A ns → 2 ≤ A.length → Configured ns A m → ∃ s, (est m).find test = some s ∧ s.value = T A
  cond : ∀ m A, Inv m → List.Sublist A ns → 2 ≤ A.length → Configured ns A m → (cond (est m) ≠ 0 ↔ C A)

/-- A combination that may be chosen. -/
def Eligible (ns : List Name) (T : List Name → K) (C : List Name → Prop) (A : List Name) : Prop :=
  List.Sublist A ns ∧ 2 ≤ A.length ∧ C A ∧ T A ≠ 0 ∧ -999999999999 < T A

end Iode.Spec.StepWise
