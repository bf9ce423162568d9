import Verif.Spec.Ascii
import Verif.Spec.AscText

/-!
# Texts of scalars, as described to users

Each scalar is a name and at most three numbers: its value, its relaxation parameter and its standard error.  Independent of
Model/AscScl.lean: only the values (`Printf.Dbl`) are those of the model.
-/
namespace Iode
namespace Asc
namespace Written
open Lec.Written Printf Decimals

/-- A text of scalars: names and values.  `na` may be a name only behind a scalar with three values. -/
inductive CLaid (missing : Dbl) (rnd : Rat → Dbl) : List (List Char × List Dbl) → List Char → Prop where
  | nil {g} : Gap g → CLaid missing rnd [] g
  | scl {g w vs r s s'} : Gap g → ObjName w → NameEnd s → Vals missing rnd vs s s' → vs.length ≤ 3 →
      (vs.length = 3 ∨ ∀ e, r.head? = some e → e.1 ≠ ['n', 'a']) → CLaid missing rnd r s' →
      CLaid missing rnd ((w, vs) :: r) (g ++ (w ++ s))

/-- The value at a place: the default value if it is left out or missing. -/
def orElse (number : Dbl → Bool) (dflt : Dbl) (v : Option Dbl) : Dbl :=
  match v with
  | none => dflt
  | some v => if number v then v else dflt

/-- What a name stands for in a list where later definitions replace earlier ones; names in lower case. -/
def lastLow {α : Type} (defs : List (List Char × α)) (k : List Char) : Option α :=
  ((defs.filter fun e => decide (e.1.map toLowerC = k)).getLast?).map (·.2)

/-- What is left of a value that is written with `P` decimal digits and read again; `dflt` takes the place of missing values. -/
def RestoredP (P : Nat) (dflt : Dbl) (number : Dbl → Bool) (v w : Dbl) : Prop :=
  (number v = false ∧ w = dflt) ∨
    (number v = true ∧ ∃ q r x, v = .num q ∧ w = .num x ∧ Nearest 10 P q r ∧ NearestD r x)

end Written
end Asc
end Iode
