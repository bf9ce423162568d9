import Verif.Model.Convert

/-!
# What conversions between periodicities mean

Each period of the low periodicity consists of `r` sub-periods of the high one.
-/
namespace Iode.Convert

open Iode.Lec

variable {F : Type}

/-- The sub-period number `j` (from 0) of the period `q`, each having `r` sub-periods of periodicity `c`. -/
def sub (r : Int) (c : Char) (q : Period) (j : Int) : Period := ⟨q.year, (q.step - 1) * r + 1 + j, c⟩

/-- All sub-periods of `q` are in the sample. -/
def Covers (r : Int) (f : Sample) (q : Period) : Prop :=
  ∀ j, 0 ≤ j → j < r → ∃ k, f.position (sub r f.start.periodicity q j) = .ok k

/-- What a list of values gives: the last value, the sum or the mean (missing if one value is missing). -/
def aggregate (A : Arith F) (m : Method) (vs : List F) : F :=
  match m with
  | .last => vs.getLastD A.na
  | .sum => if vs.all A.isNum then vs.foldl A.add (A.ofInt 0) else A.na
  | .mean =>
    let s := if vs.all A.isNum then vs.foldl A.add (A.ofInt 0) else A.na
    if A.isNum s then A.div s (A.ofInt vs.length) else s

/-- `v` is the value of the period `q` for a series `x` over the sample `f`: the aggregate of the values of its sub-periods,
missing if one of them is not in the sample. -/
def Converts (A : Arith F) (m : Method) (r : Int) (f : Sample) (x : List F) (q : Period) (v : F) : Prop :=
  (Covers r f q → ∃ vs : List F, (vs.length : Int) = r ∧ v = aggregate A m vs ∧
    ∀ j : Nat, j < vs.length → ∃ k, f.position (sub r f.start.periodicity q j) = .ok k ∧ vs[j]? = x[k.toNat]?) ∧
  (¬ Covers r f q → v = A.na)

/-- The part of the value `v` of a period that each of its `r` sub-periods gets: an equal share of a flow, the value of a stock. -/
def share (A : Arith F) (k : Kind) (r : Int) (v : F) : F :=
  if A.isNum v then (match k with | .flow => A.div v (A.ofInt r) | .stock => v) else A.na

/-- `v` is the value of the sub-period `p` when the series `x` over the sample `f` is spread: the share of the period it is part
of, missing if that period is not in the sample. -/
def Spreads (A : Arith F) (k : Kind) (r : Int) (f : Sample) (x : List F) (p : Period) (v : F) : Prop :=
  (∀ q j i, q.periodicity = f.start.periodicity → 0 ≤ j → j < r → p = sub r p.periodicity q j → f.position q = .ok i →
    ∃ xi, x[i.toNat]? = some xi ∧ v = share A k r xi) ∧
  ((¬ ∃ q j i, q.periodicity = f.start.periodicity ∧ 0 ≤ j ∧ j < r ∧ p = sub r p.periodicity q j ∧ f.position q = .ok i) → v = A.na)

end Iode.Convert
