import Verif.Model.Scan

/-!
# What `DataScan` finds
-/
namespace Iode.Spec.Scan

open Iode.Scan

/-- A name that a formula of the objects contains. -/
def Used {V : Type} (forms : V → List Form) (db : SMap V) (x : Name) : Prop := ∃ e ∈ db, ∃ l, Form.names l ∈ forms e.2 ∧ x ∈ l

/-- Written with small letters. -/
def Coef (x : Name) : Prop := checkName .scalars x = true

/-- In the order of the names, each name once. -/
def InOrder (l : List Name) : Prop := l.Pairwise fun a b => nameLt a b = true

/-- The scalars in the formulas. -/
def Scalars {V : Type} (forms : V → List Form) (db : SMap V) (l : List Name) : Prop :=
  InOrder l ∧ ∀ w, w ∈ l ↔ Used forms db w ∧ Coef w

/-- The variables in the formulas, in capital letters, without those left out. -/
def Variables {V : Type} (forms : V → List Form) (out : Name → Prop) (db : SMap V) (l : List Name) : Prop :=
  InOrder l ∧ ∀ w, w ∈ l ↔ ∃ x, Used forms db x ∧ ¬ Coef x ∧ ¬ out x ∧ w = toKey .variables x

/-- Every formula is there, and its names are names of scalars or of variables. -/
def Sound {V : Type} (forms : V → List Form) (db : SMap V) : Prop :=
  ∀ e ∈ db, ∀ f ∈ forms e.2, f ≠ .missing ∧ ∀ l, f = .names l → ∀ x ∈ l, Coef x ∨ checkName .variables (toKey .variables x) = true

end Iode.Spec.Scan
