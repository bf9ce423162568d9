import Verif.Model.EstPrep

/-! # What the preparation of a block of equations must give -/
namespace Iode.EstPrep

/-- All names of an equation. -/
def Eqn.names (e : Eqn) : List Name := e.lhs ++ e.rhs

end Iode.EstPrep

namespace Iode.Spec.EstPrep

open Iode.EstPrep Iode.Lec

/-- The coefficients of the right hand sides, each one where it occurs for the first time. -/
def coefficients (es : List Eqn) : List Name := ((es.flatMap Eqn.rhs).filter fun x => isCoef x).eraseDups

/-- The scalar takes part in the estimation: its relaxation parameter is positive. -/
def estimated {K : Type} [Zero K] [LinearOrder K] (m : SMap (Scl K)) (x : Name) : Bool :=
  match m.find x with
  | some s => decide (0 < s.relax)
  | none => false

/-- `y` is a scalar created for an equation after equation `i`. -/
def CreatedAfter {V : Type} (m : SMap V) (es : List Eqn) (i : Nat) (y : Name) : Prop :=
  isCoef y = true ∧ m.find y = none ∧ (∀ j ≤ i, ∀ e, es[j]? = some e → y ∉ e.names) ∧ ∃ e ∈ es, y ∈ e.names

/-- No scalar created after equation `i` comes before one of its coefficients in the order of the names. -/
def Stable {V : Type} (m : SMap V) (es : List Eqn) : Prop :=
  ∀ (i : Nat) (e : Eqn), es[i]? = some e → ∀ x ∈ e.rhs, isCoef x = true → ∀ y, CreatedAfter m es i y → nameLt y x = false

end Iode.Spec.EstPrep
