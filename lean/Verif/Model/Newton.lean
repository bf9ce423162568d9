import Verif.Model.Res

/-!
# Solving one equation numerically

`CLEC::newton_sub`, `newton`, `secant` and `zero` (api/lec/l_newton.cpp, api/lec/l_secant.cpp).  The values of the variables
are a store; executing the formula (`L_exec`) is a parameter.
-/
namespace Iode.Sim

/-- Operations on doubles used by the solvers. -/
structure Flo (F : Type) where
  /-- `IODE_NAN` -/
  na : F
  /-- `IODE_IS_A_NUMBER` -/
  isNum : F → Bool
  /-- `IODE_IS_0` -/
  isZero : F → Bool
  /-- the constant `n / d` -/
  rat : Int → Nat → F
  add : F → F → F
  sub : F → F → F
  mul : F → F → F
  div : F → F → F
  /-- `fabs` -/
  abs : F → F
  /-- `a < b` -/
  lt : F → F → Bool
  /-- `a == b` -/
  eq : F → F → Bool

variable {F : Type}

/-- The values of the variables: position in the database of variables, position of the period. -/
abbrev Store (F : Type) := Nat → Int → F

/-- `d_ptr[t] = x`. -/
def Store.set (s : Store F) (v : Nat) (t : Int) (x : F) : Store F :=
  fun w u => if w = v ∧ u = t then x else s w u

/-- An equation compiled and linked: its names (`clec->objs`), the flag `duplicated_endo`, the position of the variable with
the name of the equation (`eqvarnb`) and the formula executed by `L_exec`. -/
structure Eqn (F : Type) where
  /-- `none` for a coefficient, the position for a variable -/
  objs : List (Option Nat)
  dup : Bool
  own : Nat
  exec : Store F → Int → Res F

/-- `KSIM_NEWTON_EPS` and `KSIM_NEWTON_MAXIT`, k_sim_main.cpp 104-107. -/
structure NewtonOpts (F : Type) where
  eps : F
  maxit : Nat

/-- `shift`: 0, or the value of the variable the equation is named after, l_newton.cpp 175-188 and l_secant.cpp 152-163. -/
def shiftOf (A : Flo F) (q : Eqn F) (v : Nat) (t : Int) (s : Store F) : F :=
  if v = q.own ∨ q.dup = true then A.rat 0 1 else s q.own t

/-- The step used for the derivative, l_newton.cpp 223-226. -/
def stepOf (A : Flo F) (x : F) : F :=
  if A.lt (A.rat 1 1) (A.abs x) then A.mul (A.rat 1 10000) (A.abs x) else A.rat 1 10000

/-- The loop of `newton_sub`, l_newton.cpp 196-253: the value returned and the store.  Both ways out that are no solution store
the old value again. -/
def newtonLoop (A : Flo F) (q : Eqn F) (v : Nat) (t : Int) (shift eps oldx : F) : Nat → F → Store F → Res (F × Store F)
  | 0, _, s => .ok (A.na, s.set v t oldx)
  | n + 1, x, s =>
    (q.exec (s.set v t x) t).bind fun fx =>
      if A.isNum fx = false then .ok (A.na, s.set v t oldx)
      else if A.lt (A.abs (A.sub fx shift)) eps = true then .ok (x, s.set v t x)
      else
        (q.exec (s.set v t (A.add x (stepOf A x))) t).bind fun fxh =>
          if A.isNum fxh = false then .ok (A.na, s.set v t oldx)
          else if A.lt (A.abs (A.sub (A.sub fxh shift) (A.sub fx shift))) (A.rat 1 100000000) = true then
            .ok (A.na, s.set v t oldx)
          else
            let dx := A.div (A.mul (stepOf A x) (A.sub fx shift)) (A.sub (A.sub fxh shift) (A.sub fx shift))
            (q.exec (s.set v t (A.sub x dx)) t).bind fun fy =>
              newtonLoop A q v t shift eps oldx n
                (if A.isNum fy = true then A.sub x dx else A.sub x (A.div dx (A.rat 4 1))) (s.set v t (A.sub x dx))

/-- The tolerance, l_newton.cpp 162, 179, 187, 193-194. -/
def tolOf (A : Flo F) (o : NewtonOpts F) (algo : Bool) (q : Eqn F) (v : Nat) (t : Int) (s : Store F) : F :=
  let ax := if v = q.own ∨ q.dup = true then A.abs (s v t) else A.abs (s q.own t)
  if algo = true ∧ A.lt (A.rat 1 1) ax = true then A.mul o.eps ax else o.eps

/-- `newton_sub`, l_newton.cpp 159-270. -/
def newtonSub (A : Flo F) (o : NewtonOpts F) (algo : Bool) (q : Eqn F) (v : Nat) (t : Int) (s : Store F) :
    Res (F × Store F) :=
  if A.isNum (s v t) = false then .ok (A.na, s)
  else if A.isNum (shiftOf A q v t s) = false then .ok (A.na, s)
  else newtonLoop A q v t (shiftOf A q v t s) (tolOf A o algo q v t s) (s v t) o.maxit (s v t) s

/-- `newton`, l_newton.cpp 282-289. -/
def newton (A : Flo F) (o : NewtonOpts F) (q : Eqn F) (v : Nat) (t : Int) (s : Store F) : Res (F × Store F) :=
  (newtonSub A o false q v t s).bind fun p =>
    if A.isNum p.1 = true then .ok p else newtonSub A o true q v t p.2

/-- `L_fx`, l_secant.cpp 43-55: NA is not looked for. -/
def fxAt (A : Flo F) (q : Eqn F) (v : Nat) (t : Int) (shift : F) (s : Store F) (x : F) : Res (F × Store F) :=
  (q.exec (s.set v t x) t).bind fun fx => .ok (A.sub fx shift, (s.set v t x).set v t (s v t))

/-- The loop of `L_bracket`, l_secant.cpp 93-101. -/
def bracketLoop (A : Flo F) (q : Eqn F) (v : Nat) (t : Int) (shift : F) : Nat → F → F → F → F → Store F →
    Res (Option (F × F) × Store F)
  | 0, _, _, _, _, s => .ok (none, s)
  | n + 1, x1, x2, f1, f2, s =>
    if A.lt (A.mul f1 f2) (A.rat 0 1) = true then .ok (some (x1, x2), s)
    else if A.lt (A.abs f1) (A.abs f2) = true then
      let x1 := A.add x1 (A.mul (A.rat 16 10) (A.sub x1 x2))
      (fxAt A q v t shift s x1).bind fun r => bracketLoop A q v t shift n x1 x2 r.1 f2 r.2
    else
      let x2 := A.add x2 (A.mul (A.rat 16 10) (A.sub x2 x1))
      (fxAt A q v t shift s x2).bind fun r => bracketLoop A q v t shift n x1 x2 f1 r.1 r.2

/-- `L_bracket`, l_secant.cpp 80-104.  `junk` is the content of the variable `x2` of the caller, which is not initialised
(l_secant.cpp 135, 169). -/
def bracket (A : Flo F) (q : Eqn F) (v : Nat) (t : Int) (shift : F) (junk x1 : F) (s : Store F) :
    Res (Option (F × F) × Store F) :=
  if A.eq x1 junk = true then .ok (none, s)
  else
    (fxAt A q v t shift s (A.mul x1 (A.rat 1 2))).bind fun r1 =>
      (fxAt A q v t shift r1.2 (A.mul x1 (A.rat 3 2))).bind fun r2 =>
        bracketLoop A q v t shift 20 (A.mul x1 (A.rat 1 2)) (A.mul x1 (A.rat 3 2)) r1.1 r2.1 r2.2

/-- The loop of `secant`, l_secant.cpp 189-209. -/
def secantLoop (A : Flo F) (q : Eqn F) (v : Nat) (t : Int) (shift : F) : Nat → F → F → F → F → Store F →
    Res (F × Store F)
  | 0, _, _, _, _, s => .ok (A.na, s)
  | n + 1, xl, xh, fl, fh, s =>
    let xr := A.add xl (A.div (A.mul (A.sub xh xl) fl) (A.sub fl fh))
    (fxAt A q v t shift s xr).bind fun r =>
      let below := A.lt r.1 (A.rat 0 1)
      let d := if below = true then A.sub xl xr else A.sub xh xr
      if A.lt (A.abs d) (A.mul (A.rat 1 1000000) (A.abs xr)) = true ∨ A.lt (A.abs r.1) (A.rat 1 1000000) = true then
        .ok (xr, r.2)
      else if below = true then secantLoop A q v t shift n xr xh r.1 fh r.2
      else secantLoop A q v t shift n xl xr fl r.1 r.2

/-- The first value tried by `secant`, l_secant.cpp 146-163. -/
def secantStart (A : Flo F) (q : Eqn F) (v : Nat) (t : Int) (s : Store F) : F :=
  if v = q.own ∨ q.dup = true then A.abs (if A.isNum (s v t) = true then s v t else A.rat 9 10) else A.abs (s q.own t)

/-- `secant`, l_secant.cpp 130-212. -/
def secant (A : Flo F) (junk : F) (q : Eqn F) (v : Nat) (t : Int) (s : Store F) : Res (F × Store F) :=
  let shift := shiftOf A q v t s
  if A.isNum shift = false then .ok (A.na, s)
  else
    (fxAt A q v t shift s (A.rat 0 1)).bind fun r0 =>
      if A.lt (A.abs r0.1) (A.rat 1 1000000) = true then .ok (A.rat 0 1, r0.2)
      else
        (bracket A q v t shift junk (secantStart A q v t s) r0.2).bind fun b =>
          match b.1 with
          | none => .ok (A.na, b.2)
          | some (x1, x2) =>
            (fxAt A q v t shift b.2 x1).bind fun r1 =>
              (fxAt A q v t shift r1.2 x2).bind fun r2 =>
                if A.lt r1.1 (A.rat 0 1) = true then secantLoop A q v t shift 20 x1 x2 r1.1 r2.1 r2.2
                else secantLoop A q v t shift 20 x2 x1 r2.1 r1.1 r2.2

/-- `zero`, l_newton.cpp 131-137: the value returned and the store. -/
def zero (A : Flo F) (o : NewtonOpts F) (junk : F) (q : Eqn F) (v : Nat) (t : Int) (s : Store F) : Res (F × Store F) :=
  (newton A o q v t s).bind fun p =>
    if A.isNum p.1 = true then .ok p else secant A junk q v t p.2

end Iode.Sim
