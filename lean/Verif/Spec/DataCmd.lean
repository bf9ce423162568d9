import Verif.Spec.LecLex
import Verif.Spec.Args
import Verif.Spec.Expand
import Verif.Model.VarModes

/-!
# What the commands on data say, as described to users

Written numbers, the values that are entered in a mode, and names.  Independent of Model/DataCmd.lean.
-/
namespace Iode.DataCmd.Written

open Iode.Lec.Written (Digits Expo number)
open Iode.Args (Text)

/-- A number without sign: digits, a point and digits or nothing, an exponent or nothing. -/
inductive Unsigned : Text → Rat → Prop where
  | whole {i x e} : Digits i → i ≠ [] → Expo x e → Unsigned (i ++ x) (number i [] e)
  | point {i f x e} : Digits i → Digits f → (i ≠ [] ∨ f ≠ []) → Expo x e → Unsigned (i ++ '.' :: (f ++ x)) (number i f e)

/-- A number. -/
inductive Number : Text → Rat → Prop where
  | plain {t q} : Unsigned t q → Number t q
  | plus {t q} : Unsigned t q → Number ('+' :: t) q
  | minus {t q} : Unsigned t q → Number ('-' :: t) (-q)

/-- A word that cannot be a number, such as `NA`. -/
def Absent (w : Text) : Prop := ∃ c r, w = c :: r ∧ ¬ Lec.Written.Digit c ∧ c ∉ ['-', '+', '.']

/-- What a word says: a number, or no value. -/
inductive Says {F : Type} (rnd : Rat → F) : Text → Option F → Prop where
  | number {w q} : Number w q → Says rnd w (some (rnd q))
  | absent {w} : Absent w → Says rnd w none

/-- The words in front of the period. -/
inductive ModeWord : List Text → VarMode → Prop where
  | none : ModeWord [] .level
  | level {c r} : c ∈ ['l', 'L'] → ModeWord [c :: r] .level
  | diff {c r} : c ∈ ['d', 'D'] → r.head? ≠ some 'y' → r.head? ≠ some 'Y' → ModeWord [c :: r] .diff
  | yoyDiff {c y r} : c ∈ ['d', 'D'] → y ∈ ['y', 'Y'] → ModeWord [c :: y :: r] .yoyDiff
  | growth {c r} : c ∈ ['g', 'G'] → r.head? ≠ some 'y' → r.head? ≠ some 'Y' → ModeWord [c :: r] .growth
  | yoyGrowth {c y r} : c ∈ ['g', 'G'] → y ∈ ['y', 'Y'] → ModeWord [c :: y :: r] .yoyGrowth

/-- How far back a mode looks. -/
def back (perYear : Nat) : VarMode → Nat
  | .level => 0
  | .diff | .growth => 1
  | .yoyDiff | .yoyGrowth => perYear

/-- The value for the earlier value `r` and the value `v` that is given. -/
def next {F : Type} [Field F] : VarMode → Option F → Option F → Option F
  | .level, _, v => v
  | .diff, some r, some v | .yoyDiff, some r, some v => some (r + v)
  | .growth, some r, some v | .yoyGrowth, some r, some v => some (r * (1 + v / 100))
  | _, _, _ => none

/-- `y` is `x` with the values `vs` entered from position `t` on, each computed from the value `lag` positions earlier in `y`; where there is no such
position and behind the end nothing is entered. -/
def Entered {F : Type} [Field F] (m : VarMode) (lag t : Nat) (vs x y : List (Option F)) : Prop :=
  y.length = x.length ∧ ∀ j, j < x.length →
    y.getD j none = if t ≤ j ∧ j < t + vs.length ∧ lag ≤ j then next m (y.getD (j - lag) none) (vs.getD (j - t) none) else x.getD j none

/-- A name as it may be typed: without blanks around, valid once it is put in the letters of the type. -/
def Typed (ty : ObjType) (w : Text) : Prop := trim w = w ∧ checkName ty (toKey ty w) = true

end Iode.DataCmd.Written
