import Verif.Model.LecLink
import Mathlib.Algebra.Order.Field.Basic

/-!
# Model of the linking of a block of equations before its estimation (api/estimation/e_prep.cpp)

An equation is given by the names in its left and its right hand side, in the order of `CLEC::objs` (each name occurs once, l_compile.cpp
17-36).  Not modelled: the values of the left hand side, computed as soon as it is linked, and the periods in the equations.
-/
namespace Iode.EstPrep

open Iode.Lec

variable {K : Type} [Field K] [LinearOrder K]

/-- A scalar. -/
structure Scl (K : Type) where
  value : K
  relax : K
deriving DecidableEq

/-- The names of an equation. -/
structure Eqn where
  lhs : List Name
  rhs : List Name

/-- E_add_scls, e_prep.cpp 198-210. -/
def addScls : List Name → SMap (Scl K) → SMap (Scl K)
  | [], m => m
  | x :: xs, m =>
    if isCoef x && !m.has (toKey .scalars x) then addScls xs (m.insert (toKey .scalars x) ⟨9 / 10, 1⟩) else addScls xs m

/-- CLEC::link_names, l_link.cpp 27-47: the positions; `none` if a name is not found. -/
def link {V : Type} (vars : SMap V) (m : SMap (Scl K)) : List Name → Option (List (Name × Nat))
  | [] => some []
  | x :: xs =>
    match if isCoef x then indexOf .scalars m x else indexOf .variables vars x with
    | none => none
    | some i => (link vars m xs).map ((x, i) :: ·)

/-- The loop over the equations of E_prep_lecs, e_prep.cpp 113-184: the scalars at the end and `objs` of each `E_CRHS[i]`. -/
def prepLecs {V : Type} (vars : SMap V) : List Eqn → SMap (Scl K) → Option (SMap (Scl K) × List (List (Name × Nat)))
  | [], m => some (m, [])
  | e :: es, m =>
    let m1 := addScls e.lhs m
    match link vars m1 e.lhs with
    | none => none
    | some _ =>
      let m2 := addScls e.rhs m1
      match link vars m2 e.rhs with
      | none => none
      | some os => (prepLecs vars es m2).map fun r => (r.1, os :: r.2)

/-- The relaxation parameter of the scalar at a position, `get_name` then `get_obj_ptr`, e_prep.cpp 357-366. -/
def relaxAt (m : SMap (Scl K)) (i : Nat) : K := ((objAt .scalars m i).map Scl.relax).getD 0

/-- What E_prep_coefs counts: `E_C_NBS`, `E_NCE`. -/
structure Coefs where
  nbs : List Nat
  nce : Nat
deriving DecidableEq

/-- The names of one equation, e_prep.cpp 347-369: the second result is its `E_NBCE`. -/
def coefsEq (m : SMap (Scl K)) : List (Name × Nat) → Coefs → Nat → Coefs × Nat
  | [], c, n => (c, n)
  | (x, i) :: os, c, n =>
    if isCoef x then
      let c' := if i ∈ c.nbs then c else ⟨c.nbs ++ [i], if 0 < relaxAt m i then c.nce + 1 else c.nce⟩
      coefsEq m os c' (if 0 < relaxAt m i then n + 1 else n)
    else coefsEq m os c n

/-- The loop over the equations of E_prep_coefs, e_prep.cpp 341-370. -/
def coefsEqs (m : SMap (Scl K)) : List (List (Name × Nat)) → Coefs → Coefs × List Nat
  | [], c => (c, [])
  | os :: rest, c =>
    let r := coefsEq m os c 0
    let r' := coefsEqs m rest r.1
    (r'.1, r.2 :: r'.2)

/-- What the estimation works with: the scalars, the equations with positions, the coefficients, `E_NBCE`. -/
structure Prep (K : Type) where
  scls : SMap (Scl K)
  eqs : List (List (Name × Nat))
  coefs : Coefs
  nbce : List Nat

/-- E_prep_lecs then E_prep_coefs; an error if there is nothing to estimate, e_prep.cpp 372-378. -/
def prep {V : Type} (vars : SMap V) (es : List Eqn) (m : SMap (Scl K)) : Option (Prep K) :=
  match prepLecs vars es m with
  | none => none
  | some r =>
    let c := coefsEqs r.1 r.2 ⟨[], 0⟩
    if c.1.nce = 0 then none else some ⟨r.1, r.2, c.1, c.2⟩

/-- The name of coefficient `k`, `E_DBS->get_name(E_C_NBS[k])`. -/
def coefName (q : Prep K) (k : Nat) : Option Name := q.coefs.nbs[k]?.bind fun i => q.scls[i]?.map (·.1)

/-- E_scl_in_eq, e_est.cpp 268-279. -/
def sclInEq (q : Prep K) (k i : Nat) : Bool :=
  match q.coefs.nbs[k]?, q.eqs[i]? with
  | some p, some os => os.any fun o => isCoef o.1 && decide (p = o.2)
  | _, _ => false

/-- The value that the coefficient `x` has in equation `i`: L_exec, l_exec.cpp 250-256, l_value.h 125 and k_lec.cpp 46-51. -/
def coefVal (q : Prep K) (i : Nat) (x : Name) : Option K :=
  match q.eqs[i]? with
  | none => none
  | some os =>
    match os.find? (fun o => decide (o.1 = x)) with
    | none => none
    | some o => (objAt .scalars q.scls o.2).map Scl.value

end Iode.EstPrep
