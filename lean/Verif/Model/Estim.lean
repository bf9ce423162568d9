import Verif.Model.Linear

/-!
# Model of the estimation of a block of equations (api/estimation/e_est.cpp, e_prep.cpp, e_tests.cpp)

Numbers are exact (an ordered field `K`).  The block is given by what compiling and linking it yields: the values of the left hand sides,
the value of each right hand side as a function of the coefficients, and which coefficient occurs in which equation.  A value that is
not a number is `none`; the additional test of E_mod_residuals (e_est.cpp 195-196), which also refuses a value not below `FLT_MAX`, is not
modelled, nor are failing allocations.  A square root is only compared with a number, hence represented by what is under it.
-/
namespace Iode.Estim

open Iode.Lin

variable {K : Type} [Field K] [LinearOrder K]

/-- What an estimation starts from, after E_prep_lecs (e_prep.cpp 88-187) and the counting of the coefficients in E_prep_coefs
    (e_prep.cpp 323-385). -/
structure Prob (K : Type) where
  /-- `E_NEQ`, `E_NC`, `E_T`. -/
  neq : Nat
  nc : Nat
  T : Nat
  /-- `E_LHS`. -/
  lhs : Nat → Nat → K
  /-- Equation, coefficients, period: E_rhs_ij, e_est.cpp 90-95. -/
  rhs : Nat → (Nat → K) → Nat → Option K
  /-- Coefficient, equation: E_scl_in_eq, e_est.cpp 268-279. -/
  inEq : Nat → Nat → Bool
  /-- `E_SMO`: the relaxation parameters of the coefficients. -/
  relax : Nat → K
  /-- The number of instruments of the equation and their values (period, instrument). -/
  ninst : Nat
  inst : Nat → Nat → K
  /-- `E_MET`: 0 least squares, 1 Zellner, 2 instrumental variables, 3 three stages, 4 maximum likelihood. -/
  met : Nat
  /-- `E_MAXIT`, `E_EPS`. -/
  maxit : Nat
  eps : K

/-- The result of a step: it went well, it returned -1 leaving these coefficients in the workspace, or it wrote outside of a matrix. -/
inductive Out (K α : Type) where
  | ok (a : α)
  | err (c : Nat → K)
  | ub

/-- `f[k] = v`. -/
def set {α : Type} (f : Nat → α) (k : Nat) (v : α) : Nat → α := fun i => if i = k then v else f i

/-- The coefficients that are estimated, in the order of `E_C_NBS`: the test is `relax != 0` in E_jacobian (e_est.cpp 240), E_testcv
    (337) and E_adaptcoef (371). -/
def est (p : Prob K) : List Nat := (List.range p.nc).filter fun k => decide (p.relax k ≠ 0)

/-- `E_NCE`, the number of rows of `E_G`: here the test is `relax > 0`, e_prep.cpp 362 (each coefficient counted once, 351-364). -/
def nce (p : Prob K) : Nat := ((List.range p.nc).filter fun k => decide (0 < p.relax k)).length

/-- `fabs(c) < 1e-15`, e_est.cpp 243 and e_prep.cpp 407. -/
def tiny (x : K) : Bool := decide (|x| < 1 / 10 ^ 15)

/-- E_get_C, e_prep.cpp 399-414. -/
def getC (p : Prob K) (c : Nat → K) : Nat → K :=
  fun k => if decide (k < p.nc) && decide (p.relax k ≠ 0) && tiny (c k) then 1 / 10 else c k

/-- E_c_rhs, e_est.cpp 106-126. -/
def rhsMat (p : Prob K) (c : Nat → K) : Option (Nat → Nat → K) :=
  if (List.range p.neq).all fun i => (List.range p.T).all fun t => (p.rhs i c t).isSome then
    some fun i t => (p.rhs i c t).getD 0
  else none

/-- E_mod_residuals, e_est.cpp 180-213: one row of the Jacobian, `r` being the right hand sides before the step of size `h`. -/
def modRes (p : Prob K) (k : Nat) (c : Nat → K) (r : Nat → Nat → K) (h : K) : Option (Nat → Nat → K) :=
  if (List.range p.neq).all fun i => !p.inEq k i || (List.range p.T).all fun t => (p.rhs i c t).isSome then
    some fun i t => if p.inEq k i then ((p.rhs i c t).getD 0 - r i t) / h else 0
  else none

/-- E_jacobian, e_est.cpp 228-258: the coefficients `ks` left, `j` rows filled.  A row after the last one of `E_G` does not exist. -/
def jac (p : Prob K) (r : Nat → Nat → K) :
    List Nat → Nat → (Nat → K) → (Nat → Nat → Nat → K) → Out K ((Nat → K) × (Nat → Nat → Nat → K))
  | [], _, c, g => .ok (c, g)
  | k :: ks, j, c, g =>
    if nce p ≤ j then .ub
    else
      let old := if tiny (c k) then 1 / 10 else c k
      match modRes p k (set c k (old * (1 + 1 / 10 ^ 4))) r (old * (1 / 10 ^ 4)) with
      | none => .err (set c k old)
      | some row => jac p r ks (j + 1) (set c k old) (set g j row)

/-- `E_NINSTR`, e_prep.cpp 228-233. -/
def nInstr (p : Prob K) : Nat := if p.met ≠ 2 ∧ p.met ≠ 3 then 0 else p.ninst

/-- The instruments, the constant being the first one, e_prep.cpp 250-281. -/
def instr (p : Prob K) (t i : Nat) : K := if i = 0 then 1 else p.inst t (i - 1)

/-- `E_D`, e_prep.cpp 283-293: `none` when `Z'Z` has no inverse. -/
def instrMat (p : Prob K) : Option (Nat → Nat → K) :=
  let m := p.ninst + 1
  (inv1 m fun i j => sumLoop (fun t => instr p t i * instr p t j) p.T 0 0).map fun b t s =>
    sumLoop (fun j => sumLoop (fun i => instr p t i * b i j) m 0 0 * instr p s j) m 0 0

/-- The product with `E_D`, or a copy. -/
def proj (p : Prob K) (d : Nat → Nat → K) (on : Bool) (v : Nat → K) : Nat → K :=
  if on then fun t => sumLoop (fun s => d t s * v s) p.T 0 0 else v

/-- E_c_gmg, e_est.cpp 54-79: the instruments are used when there is more than one. -/
def gmg (p : Prob K) (d w : Nat → Nat → K) (g : Nat → Nat → Nat → K) : Nat → Nat → K := fun a b =>
  sumLoop (fun i => sumLoop (fun t => g a i t *
    proj p d (decide (1 < nInstr p)) (fun t => sumLoop (fun j => g b j t * w i j) p.neq 0 0) t) p.T 0 0) p.neq 0 0

/-- E_c_gmu, e_est.cpp 290-316: the instruments are used when there is at least one. -/
def gmu (p : Prob K) (d w : Nat → Nat → K) (g : Nat → Nat → Nat → K) (u : Nat → Nat → K) : Nat → K := fun a =>
  sumLoop (fun i => sumLoop (fun t => g a i t *
    proj p d (decide (1 ≤ nInstr p)) (fun t => sumLoop (fun j => u j t * w i j) p.neq 0 0) t) p.T 0 0) p.neq 0 0

/-- E_c_vcu, e_est.cpp 391-396 (`M_xxprim`, scr4/s_maxxp.c 30-65). -/
def vcuOf (p : Prob K) (u : Nat → Nat → K) : Nat → Nat → K := fun i j =>
  sumLoop (fun t => u i t * u j t) p.T 0 0 * (1 / p.T)

/-- The sum under the square root in E_testcv, e_est.cpp 328-357, over the coefficients `ks`, the first one being in row `j` of `dc`. -/
def convSum (c dc : Nat → K) : List Nat → Nat → K → K
  | [], _, s => s
  | k :: ks, j, s =>
    convSum c dc ks (j + 1)
      (if c k ≠ 0 then
        if |dc j / c k| < |c k| then s + |dc j / c k| * |dc j / c k| else s + c k * c k
      else s)

/-- E_adaptcoef, e_est.cpp 366-381. -/
def adapt (p : Prob K) (dc : Nat → K) : List Nat → Nat → (Nat → K) → Nat → K
  | [], _, c => c
  | k :: ks, j, c => adapt p dc ks (j + 1) (set c k (c k + dc j * p.relax k))

/-- What the iterations modify: the coefficients, `E_IVCU`, `E_VCU`, `E_VCC`, `E_G`, `E_U`, `E_dC`, `E_IT`, and `conv`. -/
structure St (K : Type) where
  c : Nat → K
  ivcu : Nat → Nat → K
  vcu : Nat → Nat → K
  vcc : Nat → Nat → K
  g : Nat → Nat → Nat → K
  u : Nat → Nat → K
  dc : Nat → K
  it : Nat
  conv : Bool

/-- E_residuals, e_est.cpp 134-141. -/
def residuals (p : Prob K) (c : Nat → K) : Option ((Nat → Nat → K)) :=
  (rhsMat p c).map fun r i t => p.lhs i t - r i t

/-- The iteration from the Jacobian on: the inverse of the covariances of the residuals is computed again by method 4 only.
    e_est.cpp 508-520. -/
def iterG (p : Prob K) (d : Nat → Nat → K) (s : St K) (u : Nat → Nat → K) (c : Nat → K) (g : Nat → Nat → Nat → K) :
    Out K (St K) :=
  let vcu := if p.met = 4 then vcuOf p u else s.vcu
  match if p.met = 4 then inv1 p.neq vcu else some s.ivcu with
  | none => .err c
  | some w =>
    match mSolve (nce p) ⟨gmg p d w g, gmu p d w g u⟩ s.dc with
    | none => .err c
    | some dc =>
      let c' := getC p c
      .ok { s with
        c := adapt p dc (est p) 0 c'
        ivcu := w
        vcu := vcu
        g := g
        u := u
        dc := dc
        it := s.it + 1
        conv := decide (convSum c' dc (est p) 0 0 ≤ p.eps * p.eps) }

/-- One round of the loop, e_est.cpp 505-520. -/
def iter (p : Prob K) (d : Nat → Nat → K) (s : St K) : Out K (St K) :=
  match rhsMat p s.c with
  | none => .err s.c
  | some r =>
    match jac p r (est p) 0 s.c s.g with
    | .ub => .ub
    | .err c => .err c
    | .ok (c, g) => iterG p d s (fun i t => p.lhs i t - r i t) c g

/-- `while(conv == 0 && E_IT < E_MAXIT)`, e_est.cpp 503-521; `f` is at least the number of rounds that are left. -/
def loop (p : Prob K) (d : Nat → Nat → K) : Nat → St K → Out K (St K)
  | 0, s => .ok s
  | f + 1, s =>
    if s.conv || decide (p.maxit ≤ s.it) then .ok s
    else
      match iter p d s with
      | .ok s' => loop p d f s'
      | .err c => .err c
      | .ub => .ub

/-- What follows the loop, e_est.cpp 523-525. -/
def after (p : Prob K) (d : Nat → Nat → K) (s : St K) : Out K (St K) :=
  match residuals p s.c with
  | none => .err s.c
  | some u =>
    match inv1 p.neq (vcuOf p u) with
    | none => .err s.c
    | some w => .ok { s with vcc := gmg p d s.ivcu s.g, u := u, vcu := vcuOf p u, ivcu := w }

/-- The loop and what follows it. -/
def stage (p : Prob K) (d : Nat → Nat → K) (s : St K) : Out K (St K) :=
  match loop p d p.maxit s with
  | .ok s' => after p d s'
  | .err c => .err c
  | .ub => .ub

/-- E_c_ivcc, e_est.cpp 451-461. -/
def ivcc (p : Prob K) (s : St K) : Out K (St K) :=
  match inv1 (nce p) s.vcc with
  | none => .err s.c
  | some b => .ok { s with vcc := b }

/-- E_c_vcc, e_est.cpp 468-477; the return value of E_c_ivcu is not tested, but its failure is seen by E_c_ivcc, `M_errno` being set. -/
def vccOf (p : Prob K) (d : Nat → Nat → K) (s : St K) : Out K (St K) :=
  match inv1 p.neq s.vcu with
  | none => .err s.c
  | some w => ivcc p { s with ivcu := w, vcc := gmg p d w s.g }

/-- The end of E_gls, e_est.cpp 549-558: it fails although the coefficients have converged if this took all the iterations. -/
def last (p : Prob K) (s : St K) : Out K (St K) :=
  if decide (s.it < p.maxit) && s.conv then .ok s else .err s.c

/-- E_gls, e_est.cpp 493-561 (E_c_mcu, 426-442, only fills a matrix that is shown and cannot fail). -/
def gls (p : Prob K) (d : Nat → Nat → K) (s : St K) : Out K (St K) :=
  match stage p d s with
  | .err c => .err c
  | .ub => .ub
  | .ok s1 =>
    if p.met = 1 ∨ p.met = 3 then
      match stage p d { s1 with conv := false } with
      | .err c => .err c
      | .ub => .ub
      | .ok s2 =>
        match ivcc p s2 with
        | .ok s3 => last p s3
        | .err c => .err c
        | .ub => .ub
    else
      match vccOf p d s1 with
      | .ok s3 => last p s3
      | .err c => .err c
      | .ub => .ub

/-- The matrices as they are allocated, E_prep_alloc, e_prep.cpp 25-67. -/
def start (p : Prob K) (c : Nat → K) : St K where
  c := getC p c
  ivcu i j := if i = j then 1 else 0
  vcu i j := if i = j then 1 else 0
  vcc _ _ := 0
  g _ _ _ := 0
  u _ _ := 0
  dc _ := 0
  it := 0
  conv := false

/-- E_est from the coefficients `c`, e_est.cpp 590-620 and E_prep, e_prep.cpp 578-590 (the instruments come before the coefficients). -/
def estimate (p : Prob K) (c : Nat → K) : Out K (St K) :=
  if 1 ≤ nInstr p then
    match instrMat p with
    | none => .err c
    | some d => if nce p = 0 then .err c else gls p d (start p c)
  else if nce p = 0 then .err c
  else gls p (fun _ _ => 0) (start p c)

end Iode.Estim
