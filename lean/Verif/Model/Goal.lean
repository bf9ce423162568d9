import Verif.Model.SimRun

/-!
# Goal seeking

api/simulation/k_sim_exo2endo.cpp: an endogenous and an exogenous variable exchange their roles.
-/
namespace Iode.Sim

/-- `KSIM_POSXK`, `KSIM_POSXK_REV` and the equations marked in `KSIM_PATH`. -/
structure Seek where
  endo : Endo
  path : List Nat
  deriving DecidableEq, Repr

/-- `KSIM_POSXK[i] = p; KSIM_POSXK_REV[p] = i`, k_sim_exo2endo.cpp 105-106, 148-149. -/
def Endo.put (e : Endo) (i p : Nat) : Endo := ⟨e.posxk.set i p, e.rev.set p (some i)⟩

/-- The equation with the name of a variable; `owns` are the positions of the variables with the names of the equations.
`get_obj_ptr` (api/objs/kdb.h 1097-1115) throws if there is none. -/
def eqNamed (owns : List Nat) (p : Nat) : Res Nat := Res.ofOption (owns.findIdx? (· = p))

/-- The loop over the variables of an equation, k_sim_exo2endo.cpp 114-155; `find` is the recursive call. -/
def scanVars (find : Nat → Seek → Res (Bool × Seek)) (poseq : Nat) : List (Option Nat) → Seek → Res (Bool × Seek)
  | [], k => .ok (false, k)
  | none :: objs, k => scanVars find poseq objs k
  | some p :: objs, k =>
    match k.endo.eqOf p with
    | none => scanVars find poseq objs k
    | some j =>
      if poseq = j ∨ j ∈ k.path then scanVars find poseq objs k
      else
        (find p { k with path := j :: k.path }).bind fun r =>
          if r.1 = true then .ok (true, { r.2 with endo := r.2.endo.put poseq p }) else scanVars find poseq objs r.2

/-- `find_path`, k_sim_exo2endo.cpp 82-158.  The first argument is `KSIM_MAXDEPTH + 1 - depth`.  The names searched are those
of the equation with the name of the variable, the equation changed is the one that solves for it. -/
def findPath (owns : List Nat) (objss : List (List (Option Nat))) (exo : Nat) : Nat → Nat → Seek → Res (Bool × Seek)
  | 0, _, k => .ok (false, k)
  | fuel + 1, p, k =>
    (eqNamed owns p).bind fun i =>
      match k.endo.eqOf p with
      | none => .ub
      | some poseq =>
        if some exo ∈ objss.getD i [] then .ok (true, { k with endo := k.endo.put poseq exo })
        else scanVars (findPath owns objss exo fuel) poseq (objss.getD i []) k

/-- `exo_to_endo`, k_sim_exo2endo.cpp 178-217: whether the exchange is made, and the tables. -/
def exchange (owns : List Nat) (objss : List (List (Option Nat))) (endo exo : Nat) (e : Endo) : Res (Bool × Endo) :=
  match e.eqOf endo with
  | none => .ok (false, e)
  | some _ =>
    match e.eqOf exo with
    | some _ => .ok (false, e)
    | none => (findPath owns objss exo (owns.length + 1) endo ⟨e, []⟩).bind fun r => .ok (r.1, r.2.endo)

/-- The exchanges of a simulation, k_sim_main.cpp 623-667; the first one that fails ends the simulation. -/
def exchanges (owns : List Nat) (objss : List (List (Option Nat))) : List (Nat × Nat) → Endo → Res (Bool × Endo)
  | [], e => .ok (true, e)
  | (y, x) :: l, e => (exchange owns objss y x e).bind fun r => if r.1 = false then .ok (false, r.2) else exchanges owns objss l r.2

/-- `simulate`, k_sim_main.cpp 542-712, on linked equations; `nv` is the number of variables, `goals` the exchanges. -/
def simulateGoals {F : Type} (A : Flo F) (o : SimOpts F) (sort : SortBy) (passes nb nv : Nat) (eqs : List (Eqn F))
    (goals : List (Nat × Nat)) (names : List (Option Nat)) (t : Int) (n : Nat) (s : Store F) : Res (Bool × Store F) :=
  (exchanges (eqs.map (·.own)) (eqs.map (·.objs)) goals (Endo.link nv (eqs.map (·.own)))).bind fun r =>
    if r.1 = false then .ok (false, s)
    else simulate A o sort passes nb eqs r.2 (goals.map (·.2)) names t n s

end Iode.Sim
