import Verif.Model.RepFn

/-!
# Model of the dynamic adjustment of equations (api/objs/k_eqs.cpp 27-129, cpp_api/compute/estimation.cpp 4-37)

Texts have fewer than 2^30 characters and no character 0.  That `SCR_strip` writes into the texts of the caller, and that memory of `new` is
given to `free`, is not modelled.
-/
namespace Iode.DynAdj

open Iode.RepFn (stripText)

abbrev Text := List Char

/-- `L_split_eq`, api/lec/l_eqs.cpp 605-614, and the two texts of `E_split_eq`, k_eqs.cpp 27-44. -/
def splitEq : Text → Option (Text × Text)
  | [] => none
  | c :: r => if c = ':' ∧ r.head? = some '=' then some ([], r.tail) else (splitEq r).map fun p => (c :: p.1, p.2)

/-- The text written in a buffer of `lg` bytes. -/
def sprintf (lg : Nat) (t : Text) : Res (Option Text) := if t.length + 1 > lg then .ub else .ok (some t)

/-- `E_dynadj`, k_eqs.cpp 64-100: `none` on error. -/
def dynadj (method : Nat) (lec c1 c2 : Text) : Res (Option Text) :=
  match splitEq lec with
  | none => .ok none
  | some (lhs, rhs) =>
    let lhs := stripText lhs
    let rhs := stripText rhs
    if method = 0 then
      if c1 = [] then .ok none
      else sprintf (2 * lhs.length + rhs.length + 100)
        ("d(".toList ++ lhs ++ ") := ".toList ++ c1 ++ " * (".toList ++ rhs ++ " -(".toList ++ lhs ++ ")[-1])".toList)
    else if c1 = [] ∨ c2 = [] then .ok none
    else sprintf (2 * lhs.length + 2 * rhs.length + 100)
      ("d(".toList ++ lhs ++ ") := ".toList ++ c1 ++ " * d(".toList ++ rhs ++ ") + ".toList ++ c2 ++ " * (".toList ++ rhs ++ " -".toList ++ lhs ++ ")[-1]".toList)

/-- `dynamic_adjustment`, estimation.cpp 4-37, with `E_DynamicAdjustment`, k_eqs.cpp 115-129: the error of `E_dynadj` is not looked at, and the
    null pointer becomes a `std::string`. -/
def adjust (method : Nat) (eqs c1 c2 : Text) : Res Text :=
  if splitEq eqs = none ∨ c1 = [] ∨ (method = 1 ∧ c2 = []) then .err
  else (dynadj method (stripText eqs) (stripText c1) (stripText c2)).bind fun r =>
    match r with
    | none => .ub
    | some t => .ok t

end Iode.DynAdj
