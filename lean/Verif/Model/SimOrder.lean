import Verif.Model.Newton

/-!
# The order in which the equations of a model are solved

api/simulation/k_sim_order.cpp: decomposition in prolog, interdependent block and epilog, pseudo-triangulation of the block.
-/
namespace Iode.Sim

/-- Which variable is solved by which equation. -/
structure Endo where
  /-- `KSIM_POSXK`: position of the unknown of each equation -/
  posxk : List Nat
  /-- `KSIM_POSXK_REV`: the equation that solves a variable, `none` for -1 -/
  rev : List (Option Nat)
  deriving DecidableEq, Repr

/-- The positions before any exchange, k_sim_main.cpp 577-580, 595-607: equation `i` solves the variable with its name; `nv`
is the number of variables. -/
def Endo.link (nv : Nat) (owns : List Nat) : Endo where
  posxk := owns
  rev := (List.range owns.length).foldl (fun r i => r.set (owns.getD i 0) (some i)) (List.replicate nv none)

/-- `get_eq_position`, k_sim_order.cpp 367-377.  (Positions are those of linked formulas, below the number of variables.) -/
def Endo.eqOf (e : Endo) (p : Nat) : Option Nat :=
  if e.posxk[p]? = some p then some p else e.rev.getD p none

/-- The entry of one variable of equation `i` in its list of predecessors, k_sim_order.cpp 230-241; `none` for -1. -/
def predOf (e : Endo) (i p : Nat) : Option Nat :=
  if e.posxk[i]? = some p then none
  else if e.eqOf p = some i then none
  else e.eqOf p

/-- The entries of the variables. -/
def namedPreds (e : Endo) (i : Nat) (objs : List (Option Nat)) : List (Option Nat) :=
  (objs.filterMap id).map (predOf e i)

/-- `predecessors[i]`, k_sim_order.cpp 212-246: room is made for all names, the places of the coefficients come last and keep
the value 0. -/
def predsOf (e : Endo) (i : Nat) (objs : List (Option Nat)) : List (Option Nat) :=
  namedPreds e i objs ++ List.replicate (objs.filter (· = none)).length (some 0)

/-- `predecessors`. -/
def allPreds (e : Endo) (objss : List (List (Option Nat))) : List (List (Option Nat)) :=
  objss.mapIdx fun i objs => predsOf e i objs

/-- `successors`, filled by `add_post`, k_sim_order.cpp 41-52, 242-243. -/
def allSuccs (e : Endo) (objss : List (List (Option Nat))) : List (List (Option Nat)) :=
  objss.mapIdx fun j _ =>
    (objss.mapIdx fun i objs => ((namedPreds e i objs).filter (· = some j)).map fun _ => some i).flatten

/-- Are all equations of the list placed? k_sim_order.cpp 103-122. -/
def ready (placed : List Nat) (l : List (Option Nat)) : Bool :=
  l.all fun o => match o with | none => true | some j => decide (j ∈ placed)

/-- One turn over the equations, k_sim_order.cpp 95-129.  `placed` are the equations placed so far, in order; they are those
with `KSIM_ORDERED[i] == 1`. -/
def buildPass (lists : List (List (Option Nat))) (placed : List Nat) : List Nat :=
  (List.range lists.length).foldl
    (fun pl i => if i ∈ pl then pl else if ready pl (lists.getD i []) then pl ++ [i] else pl) placed

/-- The outer loop of `build_pre_post_list`, k_sim_order.cpp 93-130; `fuel` bounds the number of turns. -/
def buildLoop (lists : List (List (Option Nat))) : Nat → List Nat → List Nat
  | 0, placed => placed
  | fuel + 1, placed =>
    let placed' := buildPass lists placed
    if placed'.length = placed.length then placed' else buildLoop lists fuel placed'

/-- `build_pre_post_list`, k_sim_order.cpp 84-133: the placed equations followed by those of the new block.  Each turn but the
last places at least one equation. -/
def buildList (lists : List (List (Option Nat))) (placed : List Nat) : List Nat :=
  buildLoop lists (lists.length + 1) placed

/-- `KSIM_PRE`, `KSIM_INTER`, `KSIM_POST` and `KSIM_ORDER`. -/
structure Blocks where
  pre : List Nat
  inter : List Nat
  post : List Nat
  deriving DecidableEq, Repr

/-- `KSIM_ORDER`. -/
def Blocks.order (b : Blocks) : List Nat := b.pre ++ b.inter ++ b.post

/-- The decomposition, k_sim_order.cpp 313-341: the epilog is reversed, the rest is the block. -/
def decompose (e : Endo) (objss : List (List (Option Nat))) : Blocks :=
  let pre := buildList (allPreds e objss) []
  let both := buildList (allSuccs e objss) pre
  { pre := pre
    inter := (List.range objss.length).filter (· ∉ both)
    post := (both.drop pre.length).reverse }

/-- `KSIM_PERM` at the start, k_sim_order.cpp 387-399. -/
def permInit (inter : List Nat) : Nat → Int :=
  fun i => match inter.findIdx? (· = i) with | some k => k | none => -1

/-- The latest place of an explanatory variable, k_sim_order.cpp 437-452. -/
def permMax (perm : Nat → Int) (vars : List (Option Nat)) : Int :=
  vars.foldl (fun m o => match o with | none => m | some j => if perm j > m then perm j else m) (-1)

/-- `compute_tri_perm1`, k_sim_order.cpp 435-465. -/
def permStep (lists : List (List (Option Nat))) (perm : Nat → Int) (i : Nat) : Nat → Int :=
  let m := permMax perm (lists.getD i [])
  if m < perm i then perm
  else fun j => if j = i then m else if perm i < perm j ∧ perm j ≤ m then perm j - 1 else perm j

/-- The passes, k_sim_order.cpp 487-494. -/
def permPasses (lists : List (List (Option Nat))) (inter : List Nat) (passes : Nat) : Nat → Int :=
  (List.range passes).foldl (fun p _ => inter.foldl (permStep lists) p) (permInit inter)

/-- `compute_tri_end`, k_sim_order.cpp 409-417, on the block alone. -/
def permEnd (nb : Nat) (perm : Nat → Int) (inter : List Nat) : List Nat :=
  (List.range nb).foldl (fun ord i => if 0 ≤ perm i then ord.set (perm i).toNat i else ord) inter

/-- `SimuSortAlgorithm`, simulation.h 20-25. -/
inductive SortBy where
  | connex | both | none
  deriving DecidableEq, Repr

/-- The positions of the equations given in `eqs`, k_sim_order.cpp 302-303: the first `nb` are read, -1 is stored for an
equation that is not in the model. -/
def namedOrder (nb : Nat) (eqs : List (Option Nat)) : Res (List Nat) :=
  if eqs.length < nb then .ub
  else if (eqs.take nb).all (·.isSome) then .ok ((eqs.take nb).filterMap id) else .ub

/-- `order`, k_sim_order.cpp 282-351.  `eqs` are the positions of the equations named by the caller; `passes` is
`KSIM_PASSES`. -/
def order (sort : SortBy) (passes : Nat) (e : Endo) (objss : List (List (Option Nat))) (eqs : List (Option Nat)) :
    Res Blocks :=
  match sort with
  | .none =>
    if eqs = [] then .ok ⟨[], List.range objss.length, []⟩
    else (namedOrder objss.length eqs).bind fun l => .ok ⟨[], l, []⟩
  | .connex => .ok (decompose e objss)
  | .both =>
    let b := decompose e objss
    .ok { b with inter := permEnd objss.length (permPasses (allPreds e objss) b.inter passes) b.inter }

end Iode.Sim
