import Verif.Model.EstPrep

/-!
# Model of the choice of the coefficients of an equation (api/estimation/e_step.cpp)

The estimation and the condition are parameters: `est` is what `Estimation::estimate` does to the scalars, whether it succeeds or not
(line 167-168), `cond` the value of the formula in the first period (`IODE_NAN`, a number other than 0, when it has none).  The standard
error kept in a scalar and the messages are not modelled.  An exception is `err`.
-/
namespace Iode.StepWise

open Iode.Lec Iode.EstPrep

variable {K : Type} [Field K] [LinearOrder K]

/-- E_GetScls, e_step.cpp 43-55: `get_obj_ptr` throws if the scalar does not exist. -/
def getScls (m : SMap (Scl K)) : List Name → Res (List Name)
  | [] => .ok []
  | x :: xs =>
    if isCoef x then
      match m.find x with
      | none => .err
      | some s => if s.relax ≠ 0 then (getScls m xs).bind fun r => .ok (x :: r) else getScls m xs
    else getScls m xs

/-- E_SetScl, e_step.cpp 65-78. -/
def setScl (on : Bool) (x : Name) (m : SMap (Scl K)) : Res (SMap (Scl K)) :=
  match m.find x with
  | none => .err
  | some _ => .ok (m.insert x (if on then ⟨9 / 10, 1⟩ else ⟨0, 0⟩))

/-- The loop over the scalars, e_step.cpp 142-159: `cscl` is two to the power `j`; the second result is `nscl`.  `b` is the length of the
    text in `buf` (512 bytes), which `strcat` exceeds if the names are too long. -/
def setAll (i : Nat) : Nat → List Name → SMap (Scl K) → Nat → Nat → Res (SMap (Scl K) × Nat)
  | _, [], m, n, _ => .ok (m, n)
  | j, x :: xs, m, n, b =>
    if i.testBit j then
      (setScl true x m).bind fun m' => if 511 < b + x.length + 1 then .ub else setAll i (j + 1) xs m' (n + 1) (b + x.length + 1)
    else (setScl false x m).bind fun m' => setAll i (j + 1) xs m' n b

/-- estimate_step_wise_1, e_step.cpp 134-185: the value of the test and the scalars; `test` is the name of the scalar `e0_<test>`. -/
def run (est : SMap (Scl K) → SMap (Scl K)) (test : Name) (ns : List Name) (i : Nat) (m : SMap (Scl K)) : Res (K × SMap (Scl K)) :=
  (setAll i 0 ns m 0 0).bind fun r =>
    if 1 < r.2 then
      match (est r.1).find test with
      | none => .err
      | some s => .ok (s.value, est r.1)
    else .ok (0, r.1)

/-- The loop over the combinations, e_step.cpp 272-282, `c` rounds left: `last_i`, `last_numtest` and the scalars. -/
def loop (est : SMap (Scl K) → SMap (Scl K)) (cond : SMap (Scl K) → K) (test : Name) (ns : List Name) :
    Nat → Nat → Nat → K → SMap (Scl K) → Res (Nat × K × SMap (Scl K))
  | 0, _, li, l, m => .ok (li, l, m)
  | c + 1, i, li, l, m =>
    (run est test ns i m).bind fun r =>
      if l < r.1 ∧ cond r.2 ≠ 0 ∧ r.1 ≠ 0 then loop est cond test ns c (i + 1) i r.1 r.2
      else loop est cond test ns c (i + 1) li l r.2

/-- estimate_step_wise, e_step.cpp 240-289, on an equation that exists, with the names `objs`: 31 scalars or more and two to that power is
    no `int`. -/
def stepWise (est : SMap (Scl K) → SMap (Scl K)) (cond : SMap (Scl K) → K) (test : Name) (objs : List Name) (m : SMap (Scl K)) :
    Res (K × SMap (Scl K)) :=
  (getScls m objs).bind fun ns =>
    if 31 ≤ ns.length then .ub
    else (loop est cond test ns (2 ^ ns.length - 1) 1 0 (-999999999999) m).bind fun r => run est test ns r.1 r.2.2

end Iode.StepWise
