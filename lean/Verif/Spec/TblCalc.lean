import Verif.Model.TblCalc
import Mathlib.Algebra.BigOperators.Group.Finset.Basic
import Mathlib.Algebra.Order.Interval.Finset.Basic
import Mathlib.Order.Interval.Finset.Defs
import Mathlib.Data.Int.Interval

/-!
# What the cells of a table show
-/
namespace Iode.TblCalc

open Iode.GSample

variable {K : Type} [Field K] [LinearOrder K]

/-- The value of a formula at position `t`, divided by its divisor if there is one. -/
def Shows (s : Source K) (hasDiv : Bool) (t : Int) (x : K) : Prop :=
  ∃ y, s.cell t = some y ∧ if hasDiv = true then ∃ d, s.div t = some d ∧ d ≠ 0 ∧ x * d = y else x = y

/-- Number of steps between two positions. -/
def steps (t0 t1 : Int) : Nat := (t0 - t1).natAbs

/-- `x` is the result of the operation between the positions `t0` and `t1` for the values `q`. -/
def Between (q : Int → K → Prop) (op : Op) (t0 t1 : Int) (x : K) : Prop :=
  ∃ a b, q t0 a ∧ q t1 b ∧
    match op with
    | .diff => x = a - b
    | .mdiff => if t0 = t1 then x = 0 else x * steps t0 t1 = a - b
    | .grt => b ≠ 0 ∧ b * (1 + x / 100) = a
    | .mgrt => if t0 = t1 then x = 0 else b ≠ 0 ∧ 0 ≤ 1 + x / 100 ∧ b * (1 + x / 100) ^ steps t0 t1 = a
    | .base => b ≠ 0 ∧ x / 100 * b = a
    | .add => ∃ f : Int → K, (∀ j ∈ Finset.Icc (min t0 t1) (max t0 t1), q j (f j)) ∧ x = ∑ j ∈ Finset.Icc (min t0 t1) (max t0 t1), f j
    | .mean => ∃ f : Int → K, (∀ j ∈ Finset.Icc (min t0 t1) (max t0 t1), q j (f j)) ∧
        x * (steps t0 t1 + 1 : Nat) = ∑ j ∈ Finset.Icc (min t0 t1) (max t0 t1), f j

/-- `x` is what a column shows of a formula in one file. -/
def InFile (c : Col) (s : Source K) (hasDiv : Bool) (x : K) : Prop :=
  ∃ t0, c.per.difference s.start = .ok t0 ∧
    match c.opy with
    | none => Shows s hasDiv t0 x
    | some (op, p) => ∃ t1, p.difference s.start = .ok t1 ∧ Between (Shows s hasDiv) op t0 t1 x

/-- A file can be used: it is there, and the formulas only use what it contains. -/
def Usable (src : Int → Option (Source K)) (hasDiv : Bool) (f : Int) (s : Source K) : Prop :=
  src f = some s ∧ s.linked = true ∧ (hasDiv = true → s.divLinked = true)

/-- Operation between two files. -/
def BetweenFiles (op : Op) (x y z : K) : Prop :=
  match op with
  | .diff => z = x - y
  | .mean => z * 2 = x + y
  | .grt => y ≠ 0 ∧ y * (1 + z / 100) = x
  | .base => y ≠ 0 ∧ z / 100 * y = x
  | .add => z = x + y
  | .mdiff => False
  | .mgrt => False

/-- Roots: what is asked of `pow` of the C library. -/
def Roots (pow : K → K → K) : Prop := ∀ (a : K) (n : Nat), 0 ≤ a → 0 < n → 0 ≤ pow a (1 / (n : K)) ∧ pow a (1 / (n : K)) ^ n = a

end Iode.TblCalc
