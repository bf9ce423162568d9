import Verif.Model.Compare

/-!
# What the comparison of a workspace with a file means
-/
namespace Iode.Compare

open Iode.Args (Text)

/-- The test of the manual. -/
def Close (eps x y : Rat) : Prop := (x ≠ 0 ∧ |(x - y) / x| < eps) ∨ (x = 0 ∧ |y| < eps)

/-- The names that the four lists should contain, in the order of the names. -/
structure Parts {V : Type} (eqv : V → V → Prop) (k1 k2 : SMap V) (f : Four) : Prop where
  one : ∀ w, w ∈ f.l1 ↔ (∃ a, k1.find w = some a) ∧ k2.find w = none
  two : ∀ w, w ∈ f.l2 ↔ k1.find w = none ∧ ∃ b, k2.find w = some b
  three : ∀ w, w ∈ f.l3 ↔ ∃ a b, k1.find w = some a ∧ k2.find w = some b ∧ eqv a b
  four : ∀ w, w ∈ f.l4 ↔ ∃ a b, k1.find w = some a ∧ k2.find w = some b ∧ ¬ eqv a b
  sorted : ∀ l ∈ [f.l1, f.l2, f.l3, f.l4], l.Pairwise fun x y => nameLt x y = true

/-- Lines as the editor and the files make them: a title has one cell, a line without contents none. -/
def Regular (l : Tbl.Line) : Prop := if l.type = Tbl.tTitle then l.cells.length = 1 else if l.type = Tbl.tCell then True else l.cells = []

end Iode.Compare
