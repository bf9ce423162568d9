import Mathlib.Algebra.Order.Field.Basic

/-!
# Runs and seasons
-/
namespace Iode.Season

variable {K : Type} [Field K]

/-- The first run of numbers of a series: the positions `b` to `e - 1`. -/
structure Run (x : List (Option K)) (b e : Nat) : Prop where
  lt : b < e
  before : ∀ i, i < b → x[i]? = some none
  inside : ∀ i, b ≤ i → i < e → ∃ v, x[i]? = some (some v)
  stop : ∀ v, x[e]? ≠ some (some v)

/-- The whole years at the end of a run start here. -/
def years (n b e : Nat) : Nat := e - (e - b) / n * n

/-- The series multiplied by a number. -/
def times (k : K) (x : List (Option K)) : List (Option K) := x.map (Option.map (k * ·))

/-- The series is nowhere negative. -/
def NonNeg [LinearOrder K] (x : List (Option K)) : Prop := ∀ (i : Nat) (v : K), x[i]? = some (some v) → 0 ≤ v

/-- `N` years around the level `c`, with the factors `σ` of the periods of a year. -/
def pure (n N : Nat) (c : K) (σ : Nat → K) : List (Option K) := (List.range (n * N)).map fun f => some (c * σ (f % n))

end Iode.Season
