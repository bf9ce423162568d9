import Verif.Model.Estim

/-!
# Model of the statistics of an estimation (api/estimation/e_tests.cpp, scr4/s_madet.c)

Numbers are exact; `sqrt` and `log` of the C library and `pi` (the constant `M_PI`) are parameters.  The statistics are computed by
E_output after an estimation that has returned 0, here from its problem `p` and its last state `s`.  A quotient that is not a number
is `none`.
-/
namespace Iode.Estim

open Iode.Lin

variable {K : Type} [Field K] [LinearOrder K]

/-- E_div_0, e_tests.cpp 64-69. -/
def div0 (a b : K) : K := if b = 0 then 0 else a / b

/-- E_sqrt, e_tests.cpp 75-81. -/
def sqrt0 (sqrt : K → K) (v : K) : K := if v < 0 then 0 else sqrt v

/-- `E_NBCE`, e_prep.cpp 345-369: the coefficients of the equation whose relaxation parameter is positive. -/
def nbce (p : Prob K) (i : Nat) : Nat := ((List.range p.nc).filter fun k => p.inEq k i && decide (0 < p.relax k)).length

/-- The loop over the equations `i`, `i + 1`... (`c` left) in E_deg_freed, e_tests.cpp 102-113: `nbr` equations with the coefficient `k`
    so far; `nb` is the variable `nbce`, `none` when it has no value yet; `df` is the element of `E_DF`.  The last values of `nb` and
    `df`. -/
def dfEqs (p : Prob K) (k : Nat) : Nat → Nat → Nat → Option Nat → Int → Option (Option Nat × Int)
  | 0, _, _, nb, df => some (nb, df)
  | c + 1, i, nbr, nb, _ =>
    let nbr' := if p.inEq k i then nbr + 1 else nbr
    let nb' := if p.inEq k i then some (nbce p i) else nb
    if 1 < nbr' then dfEqs p k c (i + 1) nbr' nb' p.T
    else
      match nb' with
      | none => none
      | some v => dfEqs p k c (i + 1) nbr' nb' (p.T - v)

/-- E_deg_freed, e_tests.cpp 91-116, over the coefficients `ks`: `E_DF`, `none` when `nbce` is read before it has a value. -/
def degFreed (p : Prob K) : List Nat → Option Nat → Option (List Int)
  | [], _ => some []
  | k :: ks, nb =>
    match dfEqs p k p.neq 0 0 nb 0 with
    | none => none
    | some r => (degFreed p ks r.1).map (r.2 :: ·)

/-- E_c_mcorr, e_tests.cpp 181-199: the element in row `i` and column `j`, both being filled from the row that comes later. -/
def mcorr (sqrt : K → K) (s : St K) (i j : Nat) : K :=
  let i' := max i j
  let j' := min i j
  if 0 < s.vcc i' i' * s.vcc j' j' then s.vcc i' j' / sqrt0 sqrt (s.vcc i' i' * s.vcc j' j') else 0

/-- E_c_mcorru, e_tests.cpp 207-222. -/
def mcorru (sqrt : K → K) (s : St K) (i j : Nat) : K :=
  let i' := max i j
  let j' := min i j
  div0 (s.vcu i' j') (sqrt0 sqrt (s.vcu i' i' * s.vcu j' j'))

/-- E_c_ttests, e_tests.cpp 231-252: the standard error of the coefficient in row `j`, `df` being its degrees of freedom. -/
def coefStd (sqrt : K → K) (p : Prob K) (s : St K) (df : Int) (j : Nat) : K :=
  if p.met = 4 then sqrt0 sqrt (s.vcc j j) else sqrt0 sqrt (div0 (s.vcc j j * p.T) df)

/-- `E_SSRES`, e_tests.cpp 288. -/
def ssres (p : Prob K) (s : St K) (i : Nat) : K := s.vcu i i * p.T

/-- `E_STDERR`, e_tests.cpp 289-290. -/
def stderr (sqrt : K → K) (p : Prob K) (s : St K) (i : Nat) : K := sqrt0 sqrt (div0 (s.vcu i i * p.T) (p.T - nbce p i))

/-- `E_MEAN_Y`, e_tests.cpp 291 and M_c_line, 32-54. -/
def meanY (p : Prob K) (i : Nat) : K := sumLoop (fun t => p.lhs i t) p.T 0 0 / p.T

/-- The sum of e_tests.cpp 293-305. -/
def devSum (p : Prob K) (i : Nat) : K := sumLoop (fun t => (p.lhs i t - meanY p i) * (p.lhs i t - meanY p i)) p.T 0 0

/-- `E_STDEV`, e_tests.cpp 307. -/
def stdev (sqrt : K → K) (p : Prob K) (i : Nat) : Option K := if p.T = 1 then none else some (sqrt0 sqrt (devSum p i / (p.T - 1)))

/-- `E_RSQUARE`, e_tests.cpp 312. -/
def rsquare (p : Prob K) (s : St K) (i : Nat) : K := 1 - div0 (p.T * s.vcu i i) (devSum p i)

/-- `E_RSQUARE_ADJ`, e_tests.cpp 314-315. -/
def rsquareAdj (p : Prob K) (s : St K) (i : Nat) : K := 1 - div0 ((1 - rsquare p s i) * (p.T - 1)) (p.T - nbce p i)

/-- `E_FSTAT`, e_tests.cpp 317-319. -/
def fstat (p : Prob K) (s : St K) (i : Nat) : K :=
  div0 (rsquare p s i * (p.T - nbce p i)) ((1 - rsquare p s i) * (nbce p i - 1))

/-- `E_STD_PCT`, e_tests.cpp 321-322. -/
def stdPct (sqrt : K → K) (p : Prob K) (s : St K) (i : Nat) : K := div0 (100 * stderr sqrt p s i) (meanY p i)

/-- `E_DW`, e_tests.cpp 325-330. -/
def durbin (p : Prob K) (s : St K) (i : Nat) : K :=
  div0 (sumLoop (fun t => (s.u i (t + 1) - s.u i t) * (s.u i (t + 1) - s.u i t)) (p.T - 1) 0 0) (p.T * s.vcu i i)

/-- The rows above row `m`, scr4/s_madet.c 59-66, `c` left from row `i`. -/
def detRows (m : Nat) (q : K) : Nat → Nat → (Nat → Nat → K) → Nat → Nat → K
  | 0, _, a => a
  | c + 1, i, a =>
    detRows m q c (i + 1) fun i' j' => if i' = i ∧ j' ≤ m then a i j' - a i m / q * a m j' else a i' j'

/-- The loop over the pivots of `M_det_1`, scr4/s_madet.c 55-67: rows `m`, `m - 1`, ..., 1. -/
def detLoop : Nat → (Nat → Nat → K) → Option (Nat → Nat → K)
  | 0, a => some a
  | m + 1, a => if a (m + 1) (m + 1) = 0 then none else detLoop m (detRows (m + 1) (a (m + 1) (m + 1)) (m + 1) 0 a)

/-- `det *= MATE2(i, i)`, scr4/s_madet.c 69, `c` rounds left. -/
def diagProd (a : Nat → Nat → K) : Nat → Nat → K → K
  | 0, _, d => d
  | c + 1, i, d => diagProd a c (i + 1) (d * a i i)

/-- `M_det_1` on a square matrix of dimension `n` (at least 1), scr4/s_madet.c 36-77. -/
def det1 (n : Nat) (a : Nat → Nat → K) : K :=
  match detLoop (n - 1) a with
  | none => 0
  | some b => diagProd b (n - 1) 1 (b 0 0)

/-- E_c_umu, e_tests.cpp 122-144. -/
def umu (p : Prob K) (s : St K) : K :=
  sumLoop (fun i => sumLoop (fun t => s.u i t * sumLoop (fun j => s.u j t * s.ivcu i j) p.neq 0 0) p.T 0 0) p.neq 0 0

/-- E_c_loglik, e_tests.cpp 152-174. -/
def loglik (log : K → K) (pi : K) (p : Prob K) (s : St K) (i : Nat) : K :=
  if p.met = 0 ∨ p.met = 2 then -(p.T * (1 / 2)) * (1 + log (2 * pi * s.vcu i i))
  else -(1 / 2) * (p.neq * p.T * log (2 * pi) + p.T * log (det1 p.neq s.vcu) + umu p s)

end Iode.Estim
