import Verif.Model.DataCmd
import Verif.Model.RepFn

/-!
# Model of what an estimation saves (api/estimation/k_est.cpp)

`KE_est_s` estimates the equations with some names, each with its block, and saves the results in equations, scalars and variables.

Simplifications
* the estimation of one block (`E_est`, see `Estim`, `EstPrep` and `EstStat`) is a parameter: what it does to the scalars and, if it succeeds, the results;
* an estimation with an empty equation does not succeed (`L_split_eq`), and there is a sample of variables, so that neither `KE_update` nor `E_est` fails by itself;
* a database of equations is the map of the workspace with the keys of those in `E_DBE`: all of them, or those of a shallow subset, which shares its objects (C11);
* the date is a number; what is printed is left out.
-/
namespace Iode.EstSave

open Iode.Args (Text)
open DataCmd (Out loop)

/-- An equation, api/objs/equations.h:118-131. -/
structure Eqn (F : Type) where
  endo : Text
  lec : Text
  method : Int
  sample : Option Sample
  comment : Text
  instruments : Text
  block : Text
  date : Nat
  tests : List F
  deriving DecidableEq

/-- A scalar, api/objs/scalars.h 22-27. -/
structure Scl (K : Type) where
  value : K
  relax : K
  std : Option K
  deriving DecidableEq

/-- What `E_est` gets. -/
structure Req where
  endos : List Text
  lecs : List Text
  instrs : List Text
  method : Int
  sample : Sample
  deriving DecidableEq

/-- What `E_est` finds: the tests of each equation in the order of `IodeEquationTest` (equations.h 48-61), the two sides and the residuals by
    equation and period, the number of coefficients. -/
structure Found (F K : Type) where
  test : Nat → Nat → F
  fit : Nat → Nat → K
  obs : Nat → Nat → K
  res : Nat → Nat → K
  nce : Nat

/-- The estimation of a block and the values the results depend on: `rest` is what the array of tests holds behind the eleven that are set,
    `first` and `nb` are the sample of the variables. -/
structure Eng (F K : Type) where
  est : Req → SMap (Scl K) → SMap (List (Option K)) → SMap (Scl K) × Option (Found F K)
  rest : List F
  zero : F
  wide : F → K
  int : Nat → K
  one : K
  today : Nat
  first : Period
  nb : Nat

structure St (F K : Type) where
  eqs : SMap (Eqn F)
  dbe : List Name
  scls : SMap (Scl K)
  vars : SMap (List (Option K))
  seen : List Text

variable {F K : Type}

/-- `E_savescl`, k_est.cpp 45-53. -/
def saveScl (g : Eng F K) (v : K) (j : Nat) (txt : Text) (m : SMap (Scl K)) : SMap (Scl K) :=
  m.insert (toKey .scalars ('e' :: (natToChars j ++ '_' :: txt))) ⟨v, g.one, none⟩

/-- The names and the positions of the tests in `E_tests2scl`. -/
def testNames : List (Text × Nat) :=
  [("stdev".toList, 1), ("meany".toList, 2), ("ssres".toList, 3), ("stderr".toList, 4), ("stderrp".toList, 5), ("fstat".toList, 6),
   ("r2".toList, 7), ("r2adj".toList, 8), ("dw".toList, 9), ("loglik".toList, 10)]

/-- `E_tests2scl`, k_est.cpp 74-92. -/
def tests2scl (g : Eng F K) (tests : List F) (j n k : Nat) (m : SMap (Scl K)) : SMap (Scl K) :=
  testNames.foldl (fun m p => saveScl g (g.wide (tests.getD p.2 g.zero)) j p.1 m) (saveScl g (g.int k) j "k".toList (saveScl g (g.int n) j "n".toList m))

/-- `E_savevar`, k_est.cpp 109-124, with `KV_add`, api/objs/k_wsvar.cpp 151-182: periods outside the sample of the variables are outside the vector. -/
def saveVar (g : Eng F K) (name : Text) (j : Nat) (off : Int) (t : Nat) (row : Nat → K) (m : SMap (List (Option K))) : Res (SMap (List (Option K))) :=
  if 0 < t ∧ (off < 0 ∨ (g.nb : Int) < off + t) then .ub
  else .ok (m.insert (toKey .variables (name ++ natToChars j))
    ((List.range g.nb).map fun i : Nat => if off ≤ (i : Int) ∧ (i : Int) < off + t then some (row ((i : Int) - off).toNat) else none))

/-- The method that is saved, k_est.cpp 142-144. -/
def savedMethod (m : Int) : Int := if 0 ≤ m ∧ m < 5 then m else 0

/-- `KE_update`, k_est.cpp 138-180. -/
def update (g : Eng F K) (name lec : Text) (m : Int) (s : Sample) (tests : List F) (st : St F K) : St F K :=
  let key := toKey .equations name
  if key ∈ st.dbe then
    match st.eqs.find key with
    | some e => { st with eqs := st.eqs.insert key { e with sample := some s, lec := lec, method := savedMethod m, date := g.today, tests := tests } }
    | none => st
  else { st with
    eqs := st.eqs.insert key ⟨name, lec, savedMethod m, some s, [], [], name, g.today, tests⟩
    dbe := key :: st.dbe }

/-- The tests of the equation at position `j` as they are saved, k_est.cpp 294-304. -/
def testsOf (g : Eng F K) (r : Found F K) (j : Nat) : List F := (List.range 11).map (r.test j) ++ g.rest

/-- One round of the loop that saves a block, k_est.cpp 292-325. -/
def saveEq (g : Eng F K) (m : Int) (s : Sample) (off : Int) (r : Found F K) (j : Nat) (name lec : Text) (st : St F K) : Res (St F K) :=
  let st1 := update g name lec m s (testsOf g r j) st
  let scls := tests2scl g (testsOf g r j) j s.nb.toNat r.nce st1.scls
  (saveVar g "_YCALC".toList j off s.nb.toNat (r.fit j) st1.vars).bind fun v1 =>
    (saveVar g "_YOBS".toList j off s.nb.toNat (r.obs j) v1).bind fun v2 =>
      (saveVar g "_YRES".toList j off s.nb.toNat (r.res j) v2).bind fun v3 =>
        .ok { st1 with scls := scls, vars := v3, seen := name :: st1.seen }

/-- The loop that saves a block. -/
def saveAll (g : Eng F K) (m : Int) (s : Sample) (off : Int) (r : Found F K) : Nat → List (Text × Text) → St F K → Res (St F K)
  | _, [], st => .ok st
  | j, (name, lec) :: rest, st => (saveEq g m s off r j name lec st).bind fun st' => saveAll g m s off r (j + 1) rest st'

/-- The equations of a block with their LEC, k_est.cpp 262-284. -/
def members (eqs : SMap (Eqn F)) : List Text → Option (List (Text × Text))
  | [] => some []
  | w :: ws =>
    match eqs.find (toKey .equations (RepFn.sqzText w)) with
    | none => none
    | some e => (members eqs ws).map ((RepFn.sqzText w, e.lec) :: ·)

/-- The words of a list. -/
def cut (seps : Text) (t : Text) : List Text :=
  match RepFn.vtoms seps (t.length + 1) t with
  | .ok ws => ws
  | _ => []

/-- What is estimated with an equation, k_est.cpp 251-284. -/
def blockOf (eqs : SMap (Eqn F)) (name : Text) (e : Eqn F) : Option (List (Text × Text)) :=
  if cut [' ', ',', ';'] e.block = [] then some [(name, e.lec)] else members eqs (cut [' ', ',', ';'] e.block)

/-- One round of `KE_est_s`, k_est.cpp 210-334: `met` is `est_method`.  If an equation of the block does not exist, `blk` is freed in line 281 and
    again in line 340. -/
def estOne (g : Eng F K) (met : Int) (s : Sample) (st : St F K) (name : Text) : Out (St F K) :=
  let key := toKey .equations name
  if name ∈ st.seen then .done st
  else if key ∉ st.dbe then .failed st
  else
    match st.eqs.find key with
    | none => .failed st
    | some e =>
      let st1 := { st with eqs := st.eqs.insert key { e with tests := List.replicate 20 g.zero } }
      let m := if met < 0 then e.method else met
      if s.nb < 1 then .failed st1
      else
        match blockOf st1.eqs name e, s.start.difference g.first with
        | none, _ => .ub
        | some ms, .ok off =>
          match g.est ⟨ms.map (·.1), ms.map (·.2), cut [',', ';'] e.instruments, m, s⟩ st1.scls st1.vars with
          | (scls, none) => .failed { st1 with scls := scls }
          | (scls, some r) =>
            match saveAll g m s off r 0 ms { st1 with scls := scls } with
            | .ok st' => .done st'
            | _ => .ub
        | some _, .err => .thrown st1
        | some _, .ub => .ub

/-- `KE_est_s`, k_est.cpp 196-343. -/
def estimate (g : Eng F K) (met : Int) (s : Sample) (names : List Text) (st : St F K) : Out (St F K) :=
  loop (estOne g met s) names { st with seen := [] }

end Iode.EstSave
