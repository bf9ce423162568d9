import Verif.Model.SimRun
import Verif.Model.LecLink
import Verif.Model.Lists
import Verif.Model.Grep

/-!
# The order of a model kept in lists, and simulations that follow it

api/simulation/k_sim_scc.cpp 34-242, api/simulation/k_sim_main.cpp 779-829 (the lists), 555-710 (the simulation with its own order, whose
loop is `Sim.simulate`), api/lec/l_link.cpp 223-236 (`L_link_endos`), cpp_api/compute/simulation.cpp 161-337
(`model_calculate_SCC`, `model_simulate_SCC`), api/report/commands/b_model.cpp 255-372 (`$ModelCalcSCC`, `$ModelSimulateSCC`).

* A database of equations is the list of its equations, in the order of their keys; the variables are the list of their names.
* The formulas are compiled; the value of one (`exec`) is a parameter, as in `Sim.Eqn`.
* The sample is inside that of the variables; times and messages are left out.
* The lists contain names: `get_subset` of names separated by `;` gives the equations with these names.
-/
namespace Iode.Scc

open Iode.Sim Iode.Lec

variable {F : Type}

/-- An equation before it is linked: its name, the names in its formula, in order, and the solved formula. -/
structure Src (F : Type) where
  name : Name
  objs : List Name
  dup : Bool
  exec : Sim.Store F → Int → Res F

/-- `CLEC::link` and the position of the unknown, k_sim_main.cpp 594-617 and k_sim_scc.cpp 170-191: `none` if a name is not found. -/
def link (dbv : List Name) (scl : Name → Bool) (q : Src F) : Option (Eqn F) :=
  if q.name ∈ dbv ∧ ∀ x ∈ q.objs, if isCoef x then scl x = true else x ∈ dbv then
    some { objs := q.objs.map fun x => if isCoef x then none else some (dbv.idxOf x), dup := q.dup, own := dbv.idxOf q.name, exec := q.exec }
  else none

/-- All equations. -/
def linkAll (dbv : List Name) (scl : Name → Bool) : List (Src F) → Option (List (Eqn F))
  | [] => some []
  | q :: qs => (link dbv scl q).bind fun e => (linkAll dbv scl qs).bind fun es => some (e :: es)

/-- Which variable each equation solves. -/
def endoOf (dbv : List Name) (qs : List (Src F)) : Endo := .link dbv.length (qs.map fun q => dbv.idxOf q.name)

/-- `CSimulation::simulate` without exchanges and without a list of equations, k_sim_main.cpp 555-710: `none` if it is refused, otherwise
    success and the values. -/
def simulate (A : Flo F) (o : SimOpts F) (sort : SortBy) (passes nb : Nat) (dbv : List Name) (scl : Name → Bool) (qs : List (Src F)) (t : Int) (n : Nat)
    (s : Sim.Store F) : Res (Option (Bool × Sim.Store F)) :=
  if qs = [] then .ok none
  else match linkAll dbv scl qs with
    | none => .ok none
    | some es => (Sim.simulate A o sort passes nb es (endoOf dbv qs) [] [] t n s).bind fun r => .ok (some r)

/-! ## The lists -/

/-- The names in a formula for `L_link_endos`, l_link.cpp 223-236: the position of the equation with that name.  The code writes -1 for
    a name without equation, here it is a position behind the last one, for which `get_eq_position` gives -1 as well. -/
def pseudo (names objs : List Name) : List (Option Nat) :=
  objs.map fun x => if isCoef x then none else some (names.idxOf x)

/-- `KSIM_POSXK` and `KSIM_POSXK_REV` of `calculate_SCC`, k_sim_scc.cpp 61-78: each equation has its own position. -/
def own (n : Nat) : Endo := ⟨List.range n, (List.range n).map some⟩

/-- The order found by `calculate_SCC`, k_sim_scc.cpp 48-100. -/
def blocks (tris : Int) (qs : List (Src F)) : Res Blocks :=
  order (if 0 < tris then .both else .connex) tris.toNat (own qs.length) (qs.map fun q => pseudo (qs.map (·.name)) q.objs) []

/-- The lists whose names start with `name` are removed, k_sim_main.cpp 790-801; `buf` has 256 characters. -/
def dropLists (st : Lists.Store) (name : Name) : Res Lists.Store :=
  if 256 ≤ name.length + 1 then .ub
  else (Grep.expandOne Grep.noCase '*' st.keys (name ++ ['*'])).bind fun l => .ok (l.foldl (fun s k => s.erase k) st)

/-- `sub_build_lists_order`, k_sim_main.cpp 779-812.  The result of `KL_lst` is ignored. -/
def writeBlock (st : Lists.Store) (name : Name) (block : List Name) : Res Lists.Store :=
  (dropLists st name).bind fun st => (Lists.split st name block 1000).bind fun o => .ok o.store

/-- The name of the equation at a position, `KSIM_NAME`. -/
def nameAt (qs : List (Src F)) (i : Nat) : Name := (qs.map (·.name)).getD i []

/-- `calculate_SCC`, k_sim_scc.cpp 34-110, with `build_lists_order`, k_sim_main.cpp 824-829: the lists afterwards, `none` for -1. -/
def calculate (st : Lists.Store) (tris : Int) (pre inter post : Name) (qs : List (Src F)) : Res (Option Lists.Store) :=
  if qs = [] then .ok none
  else (blocks tris qs).bind fun b =>
    (writeBlock st pre (b.pre.map (nameAt qs))).bind fun st =>
      (writeBlock st inter (b.inter.map (nameAt qs))).bind fun st =>
        (writeBlock st post (b.post.map (nameAt qs))).bind fun st => .ok (some st)

/-! ## The simulation -/

/-- The strings of a table of pointers. -/
def strings : List Lists.Cell → List Name
  | .str w :: cs => w :: strings cs
  | _ => []

/-- `get_subset` with names. -/
def subset (ws : List Name) (qs : List (Src F)) : List (Src F) := qs.filter fun q => decide (q.name ∈ ws.map (toKey .equations))

/-- `KSIM_ORDER` from the names, k_sim_scc.cpp 229-232: -1 for a name without equation, which is then used as an index. -/
def places (qs : List (Src F)) (ws : List Name) : Res (List Nat) :=
  if ∀ w ∈ ws, toKey .equations w ∈ qs.map (·.name) then .ok (ws.map fun w => (qs.map (·.name)).idxOf (toKey .equations w)) else .ub

/-- `simulate_SCC`, k_sim_scc.cpp 216-242, with `simulate_SCC_init`, 127-199. -/
def simulateSCC (A : Flo F) (o : SimOpts F) (nb : Nat) (dbv : List Name) (scl : Name → Bool) (qs : List (Src F)) (pre inter post : List Name) (t : Int)
    (n : Nat) (s : Sim.Store F) : Res (Option (Bool × Sim.Store F)) :=
  if qs = [] then .ok none
  else match linkAll dbv scl qs with
    | none => .ok none
    | some es =>
      (places qs pre).bind fun a => (places qs inter).bind fun b => (places qs post).bind fun c =>
        (simPeriods A o nb (planOf es (endoOf dbv qs) ⟨a, b, c⟩) [] n t (List.replicate b.length (A.rat 0 1)) s).bind fun r => .ok (some r)

/-- The contents of the three lists, expanded; `fuel` bounds the depth of `KL_expand`. -/
def readLists (st : Lists.Store) (fuel : Nat) (a b c : List Char) : Res (List Name × List Name × List Name) :=
  (Lists.expand st fuel a).bind fun a => (Lists.expand st fuel b).bind fun b => (Lists.expand st fuel c).bind fun c =>
    .ok (strings a, strings b, strings c)

/-- `$ModelSimulateSCC`, b_model.cpp 299-372.  The exception of `get_subset` is not caught. -/
def reportSimulate (A : Flo F) (o : SimOpts F) (nb : Nat) (dbv : List Name) (scl : Name → Bool) (st : Lists.Store) (fuel : Nat) (pre inter post : Name)
    (qs : List (Src F)) (t : Int) (n : Nat) (s : Sim.Store F) : Res (Option (Bool × Sim.Store F)) :=
  match st.find (toKey .lists pre), st.find (toKey .lists inter), st.find (toKey .lists post) with
  | some a, some b, some c =>
    (readLists st fuel a b c).bind fun r =>
      if r.1 ++ r.2.1 ++ r.2.2 ≠ [] ∧ subset (r.1 ++ r.2.1 ++ r.2.2) qs = [] then .err
      else simulateSCC A o nb dbv scl (subset (r.1 ++ r.2.1 ++ r.2.2) qs) r.1 r.2.1 r.2.2 t n s
  | _, _, _ => .ok none

/-- `Simulation::model_simulate_SCC`, cpp_api/compute/simulation.cpp 243-337: the last characters of the first two lists are looked at, which
    is undefined for empty strings.  The exception of `get_subset` is caught. -/
def apiSimulate (A : Flo F) (o : SimOpts F) (nb : Nat) (dbv : List Name) (scl : Name → Bool) (st : Lists.Store) (fuel : Nat) (pre inter post : Name)
    (qs : List (Src F)) (t : Int) (n : Nat) (s : Sim.Store F) : Res (Option (Bool × Sim.Store F)) :=
  match st.find (toKey .lists pre), st.find (toKey .lists inter), st.find (toKey .lists post) with
  | some a, some b, some c =>
    (readLists st fuel a b c).bind fun r =>
      if a = [] ∨ b = [] then .ub
      else if subset (r.1 ++ r.2.1 ++ r.2.2) qs = [] then .ok none
      else simulateSCC A o nb dbv scl (subset (r.1 ++ r.2.1 ++ r.2.2) qs) r.1 r.2.1 r.2.2 t n s
  | _, _, _ => .ok none

end Iode.Scc
