import Verif.Lemmas.LecExec

/-!
# A concrete arithmetic for the examples

Integers with NA.  Only used to show that hypotheses are met and for counterexamples.
-/
namespace Iode.Lec

/-- Integers with NA. -/
def exArith : Arith (Option Int) where
  na := none
  isNum := Option.isSome
  ofInt n := some n
  ofReal n d := some (n / d)
  half := some 0
  add a b := (a.bind fun x => b.map (x + ·))
  sub a b := (a.bind fun x => b.map (x - ·))
  mul a b := (a.bind fun x => b.map (x * ·))
  div a b := (a.bind fun x => b.map (x / ·))
  neg a := a.map (- ·)
  lt a b := match a, b with
    | some x, some y => decide (x < y)
    | none, some _ => true
    | _, none => false
  eq a b := a == b
  tiny a := a == some 0
  pow a b := (a.bind fun x => b.map fun y => x ^ y.toNat)
  expArgOk _ := true
  expResOk _ := true
  prim p a := if p = .fabs then a.map fun x => (x.natAbs : Int) else a
  pow10 a := some (a.map fun y => 10 ^ y.toNat)
  grandom a _ := a
  toInt a := a
  valPi := some 3
  valE := some 2
  valEuro := some 40
  mfn _ _ _ _ _ _ := .ok (some 0)

theorem exArith_na : exArith.isNum exArith.na = false := rfl

/-- Name of one letter. -/
def nm (c : Char) : Name := [c]

/-- Ten periods; `A` is `10 + i`, `B` is `2 * i`, `N` is NA everywhere, everything else 7; the coefficient
`c` is 5, the others NA. -/
def exEnv : Env (Option Int) where
  nb := 10
  posOf p := p.step - 1
  var x i :=
    if x = nm 'A' then some (10 + i) else if x = nm 'B' then some (2 * i)
    else if x = nm 'N' then none else some 7
  coef x := if x = nm 'c' then some 5 else none
  curt := 4

end Iode.Lec
