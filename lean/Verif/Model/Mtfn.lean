import Verif.Model.LecExec
import Mathlib.Algebra.Order.Field.Basic

/-!
# Model of the functions of several series (api/lec/l_exec_mtfn.cpp)

Numbers are exact (an ordered field `K`); `none` is the missing value `IODE_NAN`.  A sub-expression is the function from the positions to its values
(`L_exec_sub`).  `nan` is the result of an operation of `double` that gives neither a number nor `IODE_NAN`.  The functions of `math.h` are parameters.
For `hp` and `hpstd` see Hodrick.
-/
namespace Iode.Mtfn

open Iode.Lec (upTo)

variable {K : Type} [Field K] [LinearOrder K]

/-- What a function gives. -/
inductive Out (K : Type) where
  | na
  | num (x : K)
  | nan
  | ub
  deriving DecidableEq, Repr

def ofOpt : Option K → Out K
  | none => .na
  | some x => .num x

/-- The loops `for(j = from; j <= to; j++)` that leave with `IODE_NAN` at the first missing value. -/
def sumOver (f : Int → Option K) : List Int → K → Option K
  | [], acc => some acc
  | j :: js, acc =>
    match f j with
    | none => none
    | some v => sumOver f js (acc + v)

/-- `L_sum` and `L_mean`, l_exec_tfn.cpp 320-373.  Without periods the mean is 0/0, and `IODE_IS_A_NUMBER` (constants.h 228) is false for it. -/
def mean (x : Int → Option K) (a b : Int) : Option K :=
  (sumOver x (upTo a b) 0).bind fun s => if 1 + b - a = 0 then none else some (s / ((1 + b - a : Int) : K))

/-- The values of two series at `j`, the first one first. -/
def pair (x y : Int → Option K) (f : K → K → K) (j : Int) : Option K :=
  match x j with
  | none => none
  | some u =>
    match y j with
    | none => none
    | some v => some (f u v)

/-- `L_calccovar`, l_exec_mtfn.cpp 148-182. -/
def covar (orig : Bool) (x y : Int → Option K) (a b : Int) : Option K :=
  if 1 + b - a = 0 then none
  else
    (mean x a b).bind fun mx => (mean y a b).bind fun my =>
      (sumOver (pair x y fun u v => if orig then u * v else (u - mx) * (v - my)) (upTo a b) 0).bind fun s => some (s / ((1 + b - a : Int) : K))

/-- `L_var`, l_exec_mtfn.cpp 247-255. -/
def var (x : Int → Option K) (a b : Int) : Option K := covar false x x a b

/-- `L_stddev`, l_exec_mtfn.cpp 268-274. -/
def stddev (sqrt : K → K) (x : Int → Option K) (a b : Int) : Option K :=
  (var x a b).bind fun v => if v < 0 then none else some (sqrt v)

/-- `L_calccorr`, l_exec_mtfn.cpp 50-82. -/
def corr (sqrt : K → K) (x y : Int → Option K) (a b : Int) : Option K :=
  (mean x a b).bind fun mx => (mean y a b).bind fun my =>
    (sumOver (pair x y fun u _ => (u - mx) * (u - mx)) (upTo a b) 0).bind fun sxx =>
      (sumOver (pair x y fun _ v => (v - my) * (v - my)) (upTo a b) 0).bind fun syy =>
        (sumOver (pair x y fun u v => (u - mx) * (v - my)) (upTo a b) 0).bind fun sxy =>
          if sxx * syy ≤ 0 then none else some (sxy / sqrt (sxx * syy))

/-- The loop of `L_index`, l_exec_mtfn.cpp 322-330. -/
def indexLoop (u : K) (y : Int → Option K) : List Int → Option Int
  | [] => none
  | j :: js =>
    match y j with
    | none => none
    | some v => if |u - v| < 1 / 10 ^ 30 then some j else indexLoop u y js

/-- `L_index`, l_exec_mtfn.cpp 305-333. -/
def index (x y : Int → Option K) (a b t : Int) : Option Int :=
  if 1 + b - a = 0 then none
  else
    match x t with
    | none => none
    | some u => indexLoop u y (upTo a b)

/-- `L_acf`, l_exec_mtfn.cpp 350-399; `toInt` is the conversion of a number to `int`, `none` when it does not fit; `nb / 4` is truncated. -/
def acf (toInt : K → Option Int) (x y : Int → Option K) (a b t : Int) : Out K :=
  if 1 + b - a = 0 then .na
  else
    match x t with
    | none => .na
    | some u =>
      match toInt u with
      | none => .ub
      | some k =>
        if k < 0 ∨ k > (1 + b - a).tdiv 4 then .na
        else
          match mean y a b with
          | none => .na
          | some m =>
            match sumOver (pair y (fun j => y (j + k)) fun u v => (u - m) * (v - m)) (upTo a (b - k)) 0 with
            | none => .na
            | some s =>
              match sumOver (pair y y fun u _ => (u - m) * (u - m)) (upTo a b) 0 with
              | none => .na
              | some s0 => if s0 = 0 then .nan else .num (s / s0)

/-- One loop of `L_calcvals`: the position where it stops (`stop` when there is none) and the last value computed. -/
def scan (x : Int → Option K) (good : K → Bool) (stop : Int) : List Int → Option K → Int × Option K
  | [], last => (stop, last)
  | j :: js, _ =>
    match x j with
    | some v => if good v then (j, some v) else scan x good stop js (some v)
    | none => scan x good stop js none

/-- `j, j - 1, ..., 0`. -/
def downTo (j : Int) : List Int := (upTo 0 j).reverse

/-- `for(vt = j; vt < nb_obs; vt++)`. -/
def after (x : Int → Option K) (good : K → Bool) (n j : Int) : Int × Option K := scan x good (max j n) (upTo j (n - 1)) none

/-- `for(vt = j; vt >= 0; vt--)`. -/
def before (x : Int → Option K) (good : K → Bool) (j : Int) : Int × Option K := scan x good (min j (-1)) (downTo j) none

/-- `fabs(v) > 1e-15`. -/
def notZero (v : K) : Bool := decide (|v| > 1 / 10 ^ 15)

/-- `L_calcvals`, l_exec_mtfn.cpp 417-474: `vt[0]`, `vy[0]` and `vt[1]`, `vy[1]`.  The last loop does not look at `notnul`. -/
def calcvals (x : Int → Option K) (good : K → Bool) (n t : Int) : (Int × Option K) × (Int × Option K) :=
  let p1 := after x good n (t + 1)
  let p0 := before x good (t - 1)
  match p0.2, p1.2 with
  | some _, none => (before x good (p0.1 - 1), p0)
  | none, some _ => (p1, after x (fun _ => true) n (p1.1 + 1))
  | _, _ => (p0, p1)

/-- `L_interpol`, l_exec_mtfn.cpp 485-515. -/
def interpol (x : Int → Option K) (n t : Int) : Out K :=
  match x t with
  | some v => .num v
  | none =>
    let p := calcvals x (fun _ => true) n t
    if p.1.2.isNone ∧ p.2.2.isNone then .na
    else if p.1.1 < 0 then ofOpt p.2.2
    else if p.2.1 ≥ n then ofOpt p.1.2
    else
      match p.1.2, p.2.2 with
      | some y0, some y1 =>
        let d : K := ((p.2.1 - p.1.1 : Int) : K)
        if p.2.1 = p.1.1 then .nan
        else .num ((y0 * (p.2.1 : K) - y1 * (p.1.1 : K)) / d + (t : K) * (y1 - y0) / d)
      | _, _ => .nan

/-- `ay[0]` and `ay[1]`, l_exec_mtfn.cpp 544-550 and 630-636. -/
def related (y : Int → Option K) (n : Int) (p : (Int × Option K) × (Int × Option K)) : Option K × Option K :=
  (if 0 ≤ p.1.1 then y p.1.1 else none, if p.2.1 < n then y p.2.1 else none)

/-- `ayt * (vy / ay)`, or the missing value. -/
def scale (ayt ay : K) (vy : Option K) : Out K :=
  if |ay| < 1 / 10 ^ 15 then .na
  else
    match vy with
    | some v => .num (ayt * (v / ay))
    | none => .nan

/-- `L_app`, l_exec_mtfn.cpp 517-601.  When `ay[0]` is zero the result is infinite times zero. -/
def app (pow : K → K → K) (x y : Int → Option K) (n t : Int) : Out K :=
  match x t with
  | some v => .num v
  | none =>
    let p := calcvals x notZero n t
    if p.1.2.isNone ∧ p.2.2.isNone then .na
    else
      match y t with
      | none => .na
      | some ayt =>
        match related y n p with
        | (some a0, some a1) =>
          if p.1.1 < t ∧ p.2.1 > t then
            match p.1.2, p.2.2 with
            | some y0, some y1 =>
              if |y0 * a1| < 1 / 10 ^ 15 then .na
              else
                let d := (y1 * a0) / (y0 * a1)
                if d < 0 then .na
                else if a0 = 0 then .nan
                else .num (y0 * (ayt / a0 * pow (pow d (1 / ((p.2.1 - p.1.1 : Int) : K))) ((t - p.1.1 : Int) : K)))
            | _, _ => .nan
          else if p.1.1 < t then scale ayt a1 p.2.2
          else scale ayt a0 p.1.2
        | (some a0, none) => scale ayt a0 p.1.2
        | (none, some a1) => scale ayt a1 p.2.2
        | (none, none) => .na

/-- `ayt + (vy - ay)`. -/
def shift (ayt ay : K) : Option K → Out K
  | some v => .num (ayt + (v - ay))
  | none => .nan

/-- `L_dapp`, l_exec_mtfn.cpp 603-659. -/
def dapp (x y : Int → Option K) (n t : Int) : Out K :=
  match x t with
  | some v => .num v
  | none =>
    let p := calcvals x (fun _ => true) n t
    if p.1.2.isNone ∧ p.2.2.isNone then .na
    else
      match y t with
      | none => .na
      | some ayt =>
        match related y n p with
        | (some a0, some a1) =>
          if p.1.1 < t ∧ p.2.1 > t then
            match p.1.2, p.2.2 with
            | some y0, some y1 =>
              let d := (a1 - a0 + y0 - y1) / ((p.2.1 - p.1.1 : Int) : K)
              .num (ayt + y0 - a0 - ((t - p.1.1 : Int) : K) * d)
            | _, _ => .nan
          else if p.1.1 < t then shift ayt a1 p.2.2
          else shift ayt a0 p.1.2
        | (some a0, none) => shift ayt a0 p.1.2
        | (none, some a1) => shift ayt a1 p.2.2
        | (none, none) => .na

end Iode.Mtfn
