import Verif.Model.Lec

/-!
# Executing compiled LEC formulas

`L_exec_sub` (api/lec/l_exec.cpp) with the operators and functions of api/lec/l_exec_ops.cpp,
l_exec_fns.cpp, l_exec_tfn.cpp and the call protocol of l_exec_mtfn.h.  Doubles are an arbitrary type
`F` with the primitive operations of `Arith`; nothing is assumed about them here.
-/
namespace Iode.Lec

/-- Elementary functions of `math.h` and helpers that stay uninterpreted. -/
inductive Prim1 where
  | log | exp | sin | cos | acos | asin | tan | atan | tanh | sinh | cosh | fabs | sqrt | floor
  | rad | gamma | random | urandom
  deriving Repr, DecidableEq

/-- Primitive operations on doubles. -/
structure Arith (F : Type) where
  /-- `IODE_NAN` -/
  na : F
  /-- `IODE_IS_A_NUMBER` -/
  isNum : F → Bool
  ofInt : Int → F
  ofReal : Int → Nat → F
  half : F
  add : F → F → F
  sub : F → F → F
  mul : F → F → F
  div : F → F → F
  neg : F → F
  /-- `a < b` -/
  lt : F → F → Bool
  /-- `a == b` -/
  eq : F → F → Bool
  /-- `fabs(a) < 1e-15` -/
  tiny : F → Bool
  /-- `L_exp`, l_exec_ops.cpp 26-56 -/
  pow : F → F → F
  /-- the range checks of `L_expn` on the argument, l_exec_fns.cpp -/
  expArgOk : F → Bool
  /-- the range checks of `L_expn` on the result -/
  expResOk : F → Bool
  prim : Prim1 → F → F
  /-- `pow(10, (int) x)` in `L_round`; `none` when the cast is undefined -/
  pow10 : F → Option F
  /-- `randBoxMuller` -/
  grandom : F → F → F
  /-- `(int) x`; `none` when `x` does not fit -/
  toInt : F → Option Int
  valPi : F
  valE : F
  valEuro : F
  /-- functions of several expressions: from, to, t and the expressions -/
  mfn : MFn → Int → Int → Int → (Int → Res F) → (Int → Res F) → Res F

variable {F : Type}

/-- `1.0` or `0.0`. -/
def Arith.ofBool (A : Arith F) (b : Bool) : F := if b then A.ofInt 1 else A.ofInt 0

/-- A double in a condition: not equal to zero. -/
def Arith.truth (A : Arith F) (x : F) : Bool := !A.eq x (A.ofInt 0)

/-- `a <= b` for doubles: less or equal (false if one is an IEEE NaN). -/
def Arith.le (A : Arith F) (a b : F) : Bool := A.lt a b || A.eq a b

/-- `L_divide`, l_exec_ops.cpp 19-24. -/
def Arith.divide (A : Arith F) (a b : F) : F :=
  if !A.isNum b || !A.isNum a || A.eq b (A.ofInt 0) then A.na else A.div a b

/-- `L_logn`, l_exec_fns.cpp 12-22. -/
def Arith.logn (A : Arith F) (v : F) : F :=
  if !A.isNum v || A.le v (A.ofInt 0) then A.na else A.prim .log v

/-- The table `L_OPS_FN`, l_exec_ops.cpp 8-56. -/
def Arith.bin (A : Arith F) : Op → F → F → F
  | .or, a, b => A.ofBool (A.truth a || A.truth b)
  | .and, a, b => A.ofBool (A.truth a && A.truth b)
  | .ge, a, b => A.ofBool (A.le b a)
  | .gt, a, b => A.ofBool (A.lt b a)
  | .le, a, b => A.ofBool (A.le a b)
  | .lt, a, b => A.ofBool (A.lt a b)
  | .eq, a, b => A.ofBool (A.eq a b)
  | .ne, a, b => A.ofBool (!A.eq a b)
  | .plus, a, b => A.add a b
  | .minus, a, b => A.sub a b
  | .times, a, b => A.mul a b
  | .divide, a, b => A.divide a b
  | .exp, a, b => A.pow a b

/-- `L_OPS_FN` guarded by `LEC_OP::execute`, l_exec_ops.h 114-128. -/
def Arith.opSafe (A : Arith F) (o : Op) (a b : F) : F :=
  if !A.isNum a || !A.isNum b then A.na else A.bin o a b

/-- Values popped by `L_max`: the last argument first, l_exec_fns.cpp 97-109. -/
def Arith.maxRev (A : Arith F) : List F → F
  | [] => A.na
  | x :: xs => (x :: xs).foldl (fun m y => if A.lt m y then y else m) x

/-- `L_min`, l_exec_fns.cpp 111-123. -/
def Arith.minRev (A : Arith F) : List F → F
  | [] => A.na
  | x :: xs => (x :: xs).foldl (fun m y => if A.lt y m then y else m) x

/-- `L_lmean`: mean of the arguments that are numbers. -/
def Arith.lmean (A : Arith F) (xs : List F) : F :=
  let ys := xs.filter A.isNum
  if ys.length > 0 then A.div (ys.foldl A.add (A.ofInt 0)) (A.ofInt ys.length) else A.na

/-- `L_lstderr`. -/
def Arith.lstderr (A : Arith F) (xs : List F) : F :=
  let mean := A.lmean xs
  let ys := xs.filter A.isNum
  let s := ys.foldl (fun s y => A.add s (A.mul (A.sub y mean) (A.sub y mean))) (A.ofInt 0)
  if ys.length > 1 then A.prim .sqrt (A.div s (A.ofInt (ys.length - 1))) else A.na

/-- `L_round`, l_exec_fns.cpp; the arguments popped, last first. -/
def Arith.round (A : Arith F) : List F → Res F
  | [v] => .ok (A.div (A.prim .floor (A.add A.half (A.mul v (A.ofInt 1)))) (A.ofInt 1))
  | [n, v] =>
    match A.pow10 n with
    | some s => .ok (A.div (A.prim .floor (A.add A.half (A.mul v s))) s)
    | none => .ub
  | _ => .ub

/-- `L_log`, l_exec_fns.cpp 43-60; the arguments popped, last first. -/
def Arith.logf (A : Arith F) : List F → F
  | [v] => A.logn v
  | y :: x :: _ => A.divide (A.logn x) (A.logn y)
  | [] => A.na

/-- `L_expn`, l_exec_fns.cpp 76-98. -/
def Arith.expn (A : Arith F) : List F → F
  | [n] =>
    if A.expArgOk n then
      if A.expResOk (A.prim .exp n) then A.prim .exp n else A.na
    else A.na
  | n :: x :: _ => A.pow x n
  | [] => A.na

/-- The table `L_FNS_FN`, l_exec_fns.cpp: result for the arguments popped from the stack, given last
first.  All functions but `lcount` pop as many values as the call has arguments. -/
def Arith.fnRev (A : Arith F) : Fn → List F → Res F
  | .uminus, x :: _ => .ok (A.neg x)
  | .uplus, x :: _ => .ok x
  | .log, xs => .ok (A.logf xs)
  | .ln, x :: _ => .ok (A.logn x)
  | .not, x :: _ => .ok (A.ofBool (A.tiny x))
  | .expn, xs => .ok (A.expn xs)
  | .max, xs => .ok (A.maxRev xs)
  | .min, xs => .ok (A.minRev xs)
  | .sin, x :: _ => .ok (A.prim .sin x)
  | .cos, x :: _ => .ok (A.prim .cos x)
  | .acos, x :: _ => .ok (A.prim .acos x)
  | .asin, x :: _ => .ok (A.prim .asin x)
  | .tan, x :: _ => .ok (A.prim .tan x)
  | .atan, x :: _ => .ok (A.prim .atan x)
  | .tanh, x :: _ => .ok (A.prim .tanh x)
  | .sinh, x :: _ => .ok (A.prim .sinh x)
  | .cosh, x :: _ => .ok (A.prim .cosh x)
  | .abs, x :: _ => .ok (A.prim .fabs x)
  | .sqrt, x :: _ => .ok (if A.lt x (A.ofInt 0) then A.na else A.prim .sqrt x)
  | .int, x :: _ => .ok (A.prim .floor (A.add A.half x))
  | .rad, x :: _ => .ok (A.prim .rad x)
  | .if, c :: y :: x :: _ => .ok (if !A.isNum c || A.tiny c then y else x)
  | .lsum, xs => .ok (xs.foldl A.add (A.ofInt 0))
  | .lmean, xs => .ok (A.lmean xs)
  | .fnisan, x :: _ => .ok (A.ofBool (A.isNum x))
  | .lprod, xs => .ok ((xs.filter A.isNum).foldl A.mul (A.ofInt 1))
  | .sign, x :: _ => .ok (if A.lt x (A.ofInt 0) then A.ofInt (-1) else A.ofInt 1)
  | .lstderr, xs => .ok (A.lstderr xs)
  | .random, x :: _ => .ok (if A.eq x (A.ofInt 0) then A.ofInt 0 else A.prim .random x)
  | .floor, x :: _ => .ok (A.prim .floor x)
  | .ceil, x :: _ => .ok (A.add (A.ofInt 1) (A.prim .floor x))
  | .round, xs => A.round xs
  | .urandom, x :: _ => .ok (if A.eq x (A.ofInt 0) then A.ofInt 0 else A.prim .urandom x)
  | .grandom, y :: x :: _ => .ok (A.grandom x y)
  | .gamma, x :: _ => .ok (A.prim .gamma x)
  | .div0, a :: b :: _ =>
    .ok (if !A.isNum b || !A.isNum a then A.na else if A.eq b (A.ofInt 0) then A.ofInt 0 else A.div a b)
  | _, _ => .ub

/-- Functions called even if a value on the stack is NA, l_exec_fns.h 240-241. -/
def Fn.acceptsNa : Fn → Bool
  | .if | .fnisan | .lmean | .lstderr | .lcount => true
  | _ => false

/-- `LEC_FN::execute`, l_exec_fns.h 237-254: unless the function accepts NA, one NA anywhere on the
stack gives NA.  `lcount` leaves its arguments on the stack. -/
def execFn (A : Arith F) (f : Fn) (n : Nat) (stack : List F) : Res (List F) :=
  if !f.acceptsNa && stack.any (fun x => !A.isNum x) then
    if stack.length < n then .ub else .ok (A.na :: stack.drop n)
  else if f = .lcount then .ok (A.ofInt n :: stack)
  else if stack.length < n then .ub
  else (A.fnRev f (stack.take n)).bind fun v => .ok (v :: stack.drop n)

/-- `L_intlag`, l_exec.cpp 285-296: round half away from zero, then cast to `int`. -/
def Arith.intlag (A : Arith F) (x : F) : Option Int :=
  if A.lt x (A.ofInt 0) then A.toInt (A.sub x A.half) else A.toInt (A.add A.half x)

/-- The optional lag argument of `L_lag`, `L_diff`, ..., l_exec_tfn.cpp 108-116. -/
def popLag (A : Arith F) (n : Nat) (stack : List F) : Res (Int × List F) :=
  if n = 2 then
    match stack with
    | [] => .ub
    | x :: s =>
      match A.intlag x with
      | some l => .ok (l, s)
      | none => .ub
  else .ok (1, stack)

/-- Pop one time position. -/
def popPos (A : Arith F) : List F → Res (Int × List F)
  | [] => .ub
  | x :: s =>
    match A.intlag x with
    | some l => .ok (l, s)
    | none => .ub

/-- Order the ends of the range, l_exec_tfn.cpp 83-89. -/
def orderRange (a b : Int) : Int × Int := if b < a then (b, a) else (a, b)

/-- `L_extract_time_range`, l_exec_tfn.cpp 63-90. -/
def popRange (A : Arith F) (n : Int) (t : Int) (stack : List F) : Res ((Int × Int) × List F) :=
  if n = 1 then .ok ((0, t), stack)
  else if n = 3 then
    (popPos A stack).bind fun r1 => (popPos A r1.2).bind fun r2 => .ok (orderRange r2.1 r1.1, r2.2)
  else (popPos A stack).bind fun r => .ok (orderRange r.1 t, r.2)

/-- The loops `for(j = from; ...) value = L_exec_sub(...); if NA return NA; acc = f(acc, value)` of
`L_mavg`, `L_vmax`, `L_vmin`, `L_sum`, `L_prod`, `L_stderr`: `js` are the positions visited. -/
def foldBody {S : Type} (A : Arith F) (body : Int → Res F) (f : S → F → S) :
    List Int → S → Res (Option S)
  | [], acc => .ok (some acc)
  | j :: js, acc => (body j).bind fun v => if A.isNum v then foldBody A body f js (f acc v) else .ok none

/-- Positions `from, from + 1, ..., to`. -/
def upTo (a b : Int) : List Int := (List.range (b - a + 1).toNat).map fun i : Nat => a + (i : Int)

/-- Positions `t, t - 1, ..., t - lag + 1`. -/
def downFrom (t lag : Int) : List Int := (List.range lag.toNat).map fun i : Nat => t - (i : Int)

/-- The loop of `L_lastobs`, l_exec_tfn.cpp 408-421. -/
def lastObs (A : Arith F) (body : Int → Res F) : List Int → Res F
  | [] => .ok A.na
  | j :: js => (body j).bind fun v => if A.isNum v then .ok v else lastObs A body js

/-- Give NA when a loop met one. -/
def orNa {S : Type} (A : Arith F) (r : Res (Option S)) (k : S → F) : Res F :=
  r.bind fun o => match o with
    | some s => .ok (k s)
    | none => .ok A.na

/-- The value of the expression at `t` and at `t - lag`, both required to be numbers
(`L_diff`, `L_rapp`, `L_dln`), l_exec_tfn.cpp 126-207. -/
def twoPoints (A : Arith F) (body : Int → Res F) (t lag : Int) (k : F → F → F) : Res F :=
  (body t).bind fun v1 =>
    if A.isNum v1 then
      (body (t - lag)).bind fun v2 => if A.isNum v2 then .ok (k v1 v2) else .ok A.na
    else .ok A.na

/-- `L_grt`, l_exec_tfn.cpp 214-220. -/
def Arith.growth (A : Arith F) (v : F) : F :=
  if A.isNum v then A.mul (A.sub v (A.ofInt 1)) (A.ofInt 100) else A.na

/-- The end of `L_stderr`, l_exec_tfn.cpp 391-397. -/
def Arith.stderrEnd (A : Arith F) (nb : Int) (s s2 : F) : F :=
  let x := A.sub s2 (A.div (A.mul s s) (A.ofInt nb))
  if nb ≤ 1 ∨ A.lt x (A.ofInt 0) = true then A.na else A.prim .sqrt (A.div x (A.ofInt (nb - 1)))

/-- Functions whose optional argument is a lag. -/
def TFn.lagged : TFn → Bool
  | .lag | .diff | .rapp | .dln | .grt | .mavg => true
  | _ => false

/-- The functions with a lag, l_exec_tfn.cpp 106-250. -/
def lagFn (A : Arith F) (f : TFn) (body : Int → Res F) (t lag : Int) : Res F :=
  match f with
  | .lag => body (t - lag)
  | .diff => twoPoints A body t lag A.sub
  | .rapp => twoPoints A body t lag A.divide
  | .dln => twoPoints A body t lag fun a b => A.logn (A.divide a b)
  | .grt => (twoPoints A body t lag A.divide).bind fun v => .ok (A.growth v)
  | .mavg =>
    let l := if lag < 1 then 1 else lag
    orNa A (foldBody A body A.add (downFrom t l) (A.ofInt 0)) fun s => A.div s (A.ofInt l)
  | _ => .ub

/-- The functions with a range, l_exec_tfn.cpp 268-421.  `dlag` has no code (a null pointer in
`L_TFN_FN`). -/
def rangeFn (A : Arith F) (f : TFn) (body : Int → Res F) (a b : Int) : Res F :=
  match f with
  | .vmax =>
    (body a).bind fun v =>
      if A.isNum v then
        orNa A (foldBody A body (fun m x => if A.lt m x then x else m) (upTo (a + 1) b) v) id
      else .ok A.na
  | .vmin =>
    (body a).bind fun v =>
      if A.isNum v then
        orNa A (foldBody A body (fun m x => if A.lt x m then x else m) (upTo (a + 1) b) v) id
      else .ok A.na
  | .sum => orNa A (foldBody A body A.add (upTo a b) (A.ofInt 0)) id
  | .prod => orNa A (foldBody A body A.mul (upTo a b) (A.ofInt 1)) id
  | .mean =>
    orNa A (foldBody A body A.add (upTo a b) (A.ofInt 0)) fun s =>
      if A.isNum s then A.div s (A.ofInt (1 + b - a)) else A.na
  | .stderr =>
    orNa A (foldBody A body (fun (s : F × F) x => (A.add s.1 x, A.add s.2 (A.mul x x))) (upTo a b)
      (A.ofInt 0, A.ofInt 0)) fun s => A.stderrEnd (1 + b - a) s.1 s.2
  | .lastobs => lastObs A body (upTo a b).reverse
  | _ => .ub

/-- `LEC_TFN::execute`, l_exec_tfn.h 163-181. -/
def execTfn (A : Arith F) (f : TFn) (n : Nat) (body : Int → Res F) (t : Int) (stack : List F) :
    Res (List F) :=
  if f.lagged then
    (popLag A n stack).bind fun r => (lagFn A f body t r.1).bind fun v => .ok (v :: r.2)
  else
    (popRange A n t stack).bind fun r => (rangeFn A f body r.1.1 r.1.2).bind fun v => .ok (v :: r.2)

/-- `LEC_MTFN::execute`, l_exec_mtfn.h 176-191: the range is read with one argument less than the call
has, whatever the number of expressions. -/
def execMtfn (A : Arith F) (f : MFn) (n : Nat) (b1 b2 : Int → Res F) (t : Int) (stack : List F) :
    Res (List F) :=
  if f = .interpol ∨ f = .app then (A.mfn f (-1) (-1) t b1 b2).bind fun v => .ok (v :: stack)
  else
    (popRange A ((n : Int) - 1) t stack).bind fun r =>
      (A.mfn f r.1.1 r.1.2 t b1 b2).bind fun v => .ok (v :: r.2)

/-- What a formula is linked to: the sample length, the position of a period in the sample, the values
of variables and coefficients, and the global `L_curt`.  A name that is not found or a period of
another periodicity stops the link, so there is no execution (l_link.cpp 27-44, 50-160). -/
structure Env (F : Type) where
  nb : Int
  posOf : Period → Int
  var : Name → Int → F
  coef : Name → F
  curt : Int

/-- Value of a series at a position, NA outside of the sample, l_value.h 190-206. -/
def Env.at (A : Arith F) (E : Env F) (x : Name) (i : Int) : F :=
  if 0 ≤ i ∧ i < E.nb then E.var x i else A.na

/-- `LEC_VAR::calculate_ref` and `add_to_stack`, l_value.h 183-206: the position read.  Expressions
inside the functions of several expressions are not linked (l_link.cpp 151-158): their `ref` is 0. -/
def varPos (E : Env F) (linked : Bool) (lag : Int) (per : Option Period) (t : Int) : Int :=
  match per, linked with
  | none, true => lag + t
  | none, false => t
  | some p, true => lag + E.posOf p
  | some _, false => 0

/-- `add_to_stack` of the constants, l_value.h; a period is pushed as its position, -1 if it was not
linked. -/
def cstVal (A : Arith F) (E : Env F) (linked : Bool) : Cst → F
  | .long n => A.ofInt n
  | .real a b => A.ofReal a b
  | .period p => if linked then A.ofInt (E.posOf p) else A.ofInt (-1)

/-- `L_VAL_FN`, l_exec_val.cpp. -/
def valVal (A : Arith F) (E : Env F) (t : Int) : VFn → F
  | .pi => A.valPi
  | .euro => A.valEuro
  | .e => A.valE
  | .t => A.ofInt t
  | .i => A.sub (A.ofInt t) (A.ofInt E.curt)

/-- `LEC_OP::execute`, l_exec_ops.h 114-128. -/
def execOp (A : Arith F) (o : Op) : List F → Res (List F)
  | b :: a :: s => .ok (A.opSafe o a b :: s)
  | _ => .ub

/-- `return stack.back()`, or NA after an abort. -/
def result (A : Arith F) : Res (Option (List F)) → Res F
  | .ok none => .ok A.na
  | .ok (some []) => .ub
  | .ok (some (v :: _)) => .ok v
  | .err => .err
  | .ub => .ub

/-- Continue with a stack. -/
def cont {S : Type} (r : Res S) : Res (Option S) := r.bind fun s => .ok (some s)

mutual
/-- One element of `L_exec_sub`, l_exec.cpp 117-202; `none` is the abort of the whole (sub-)formula
by a coefficient that is NA. -/
def execI (A : Arith F) (E : Env F) (linked : Bool) :
    Instr → Int → List F → Res (Option (List F))
  | .cst k, _, s => .ok (some (cstVal A E linked k :: s))
  | .val v, t, s => .ok (some (valVal A E t v :: s))
  | .var x l p, t, s => .ok (some (E.at A x (varPos E linked l p t) :: s))
  | .coef x, _, s => if A.isNum (E.coef x) then .ok (some (E.coef x :: s)) else .ok none
  | .op o, _, s => cont (execOp A o s)
  | .fn f n, _, s => cont (execFn A f n s)
  | .tfn f n body, t, s => cont (execTfn A f n (fun u => result A (exec A E linked body u [])) t s)
  | .mtfn f n b1 b2, t, s =>
    cont (execMtfn A f n (fun u => result A (exec A E false b1 u []))
      (fun u => result A (exec A E false b2 u [])) t s)
/-- The loop of `L_exec_sub`. -/
def exec (A : Arith F) (E : Env F) (linked : Bool) :
    List Instr → Int → List F → Res (Option (List F))
  | [], _, s => .ok (some s)
  | i :: is, t, s => (execI A E linked i t s).bind fun o =>
    match o with
    | some s => exec A E linked is t s
    | none => .ok none
end

/-- `L_exec_sub` and `L_exec`, l_exec.cpp 110-270: value of a linked formula at position `t`. -/
def execSub (A : Arith F) (E : Env F) (code : List Instr) (t : Int) : Res F :=
  result A (exec A E true code t [])

/-- Compile, link and execute: `L_cc_link_exec` at one position, l_exec.cpp 308-334. -/
def evalText (A : Arith F) (E : Env F) (ops : List Entry) (ts : List RTok) (t : Int) : Res F :=
  match compile ops (group ts) with
  | .ok as => (build as).bind fun code => execSub A E code t
  | .err _ => .err
  | .ub => .ub

end Iode.Lec
