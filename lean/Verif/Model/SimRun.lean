import Verif.Model.SimOrder
import Verif.Model.VarModes

/-!
# Simulating a model

api/simulation/k_sim_main.cpp.  Not modelled: messages, user interruptions (`khitkey`), the statistics `KSIM_NITERS`,
`KSIM_NORMS`, `KSIM_CPUS` and the lists `_PRE`, `_INTER`, `_POST`, `_DIVER`.
-/
namespace Iode.Sim

variable {F : Type}

/-- The parameters of a simulation, k_sim_main.cpp 96-107. -/
structure SimOpts (F : Type) where
  /-- `KSIM_EPS` -/
  eps : F
  /-- `KSIM_RELAX` -/
  relax : F
  /-- `KSIM_MAXIT` -/
  maxit : Nat
  /-- `KSIM_START` -/
  start : InitMethod
  newton : NewtonOpts F
  /-- content of the variable `x2` of `secant`, which is not initialised -/
  junk : Store F → F

/-- An equation together with the position of its unknown, `KSIM_POSXK`. -/
abbrev Unk (F : Type) := Eqn F × Nat

/-- `calculate_CLEC`, k_sim_main.cpp 734-766: the value and the store. -/
def calcEq (A : Flo F) (o : SimOpts F) (t : Int) (q : Unk F) (s : Store F) : Res (F × Store F) :=
  if q.1.dup = true ∨ q.2 ≠ q.1.own then zero A o.newton (o.junk s) q.1 q.2 t s
  else (q.1.exec s t).bind fun x => .ok (x, s)

/-- The value given by `KV_init_values_1` (api/objs/k_wsvar.cpp 389-421) to variable `v` at `t`. -/
def startVal (A : Flo F) (m : InitMethod) (t : Int) (s : Store F) (v : Nat) : F :=
  let prev := 0 < t ∧ A.isNum (s v (t - 1)) = true
  let keep1 := A.isNum (s v t) = true ∧ A.isZero (s v t) = false
  let keep2 := A.isNum (s v t) = true
  let calc1 := if prev then s v (t - 1) else A.rat 1 1
  let calc2 :=
    if prev then
      if 1 < t ∧ A.isNum (s v (t - 2)) = true then A.sub (A.mul (A.rat 2 1) (s v (t - 1))) (s v (t - 2)) else s v (t - 1)
    else A.rat 1 1
  match m with
  | .tm1 => if keep1 then s v t else calc1
  | .tm1NA => if keep2 then s v t else calc1
  | .tm1A => calc1
  | .extra => if keep1 then s v t else calc2
  | .extraNA => if keep2 then s v t else calc2
  | .extraA => calc2
  | .asis => s v t

/-- `init_values`, k_sim_main.cpp 128-141. -/
def initVals (A : Flo F) (m : InitMethod) (t : Int) (qs : List (Unk F)) (s : Store F) : Store F :=
  qs.foldl (fun s q => s.set q.2 t (startVal A m t s q.2)) s

/-- `prolog` and `epilog`, k_sim_main.cpp 168-178, 342-354. -/
def solveAll (A : Flo F) (o : SimOpts F) (t : Int) : List (Unk F) → Store F → Res (Store F)
  | [], s => .ok s
  | q :: qs, s => (calcEq A o t q s).bind fun p => solveAll A o t qs (p.2.set q.2 t p.1)

/-- Distance between two iterations, k_sim_main.cpp 218-222 and 280-287. -/
def dist (A : Flo F) (xk x : F) : F :=
  let d := A.abs (A.sub xk x)
  if A.isZero xk = false then
    let r := A.abs (A.sub (A.rat 1 1) (A.div x xk))
    if A.lt d r = true then d else r
  else d

/-- The greater of the norm and a distance, k_sim_main.cpp 225, 291. -/
def raise (A : Flo F) (norm pd : F) : F := if A.lt norm pd = true then pd else norm

/-- `sub_interdep_1`, k_sim_main.cpp 197-239: `none` if an equation has no value, else `KSIM_NORM` and `KSIM_XK`. -/
def gaussSeidel (A : Flo F) (o : SimOpts F) (relax : F) (t : Int) : List (Unk F) → F → Store F →
    Res (Option (F × List F) × Store F)
  | [], norm, s => .ok (some (norm, []), s)
  | q :: qs, norm, s =>
    (calcEq A o t q s).bind fun p =>
      if A.isNum p.1 = false then .ok (none, p.2)
      else
        let r :=
          if A.isNum (s q.2 t) = true then
            gaussSeidel A o relax t qs (raise A norm (A.mul (dist A (s q.2 t) p.1) relax))
              (p.2.set q.2 t (A.add (A.mul relax (A.sub p.1 (s q.2 t))) (s q.2 t)))
          else gaussSeidel A o relax t qs (A.rat 10 1) (p.2.set q.2 t p.1)
        r.bind fun r =>
          match r.1 with
          | none => .ok (none, r.2)
          | some (norm, xk) => .ok (some (norm, s q.2 t :: xk), r.2)

/-- First stage of `sub_interdep_2`, k_sim_main.cpp 261-271: `KSIM_XK` and `KSIM_XK1`. -/
def jacobiCalc (A : Flo F) (o : SimOpts F) (t : Int) : List (Unk F) → Store F → Res (Option (List (F × F)) × Store F)
  | [], s => .ok (some [], s)
  | q :: qs, s =>
    (calcEq A o t q s).bind fun p =>
      if A.isNum p.1 = false then .ok (none, p.2)
      else
        (jacobiCalc A o t qs p.2).bind fun r =>
          match r.1 with
          | none => .ok (none, r.2)
          | some l => .ok (some ((s q.2 t, p.1) :: l), r.2)

/-- Second stage of `sub_interdep_2`, k_sim_main.cpp 274-303. -/
def jacobiSet (A : Flo F) (relax : F) (t : Int) : List (Unk F × (F × F)) → F → Store F → F × Store F
  | [], norm, s => (norm, s)
  | (q, (xk, x)) :: l, norm, s =>
    if A.isNum xk = true then
      jacobiSet A relax t l (raise A norm (A.mul (dist A xk x) relax))
        (s.set q.2 t (A.add (A.mul relax x) (A.mul (A.sub (A.rat 1 1) relax) xk)))
    else jacobiSet A relax t l (A.rat 10 1) (s.set q.2 t x)

/-- `sub_interdep_2`, k_sim_main.cpp 255-306. -/
def jacobi (A : Flo F) (o : SimOpts F) (relax : F) (t : Int) (qs : List (Unk F)) (s : Store F) :
    Res (Option (F × List F) × Store F) :=
  (jacobiCalc A o t qs s).bind fun r =>
    match r.1 with
    | none => .ok (none, r.2)
    | some l =>
      let f := jacobiSet A relax t (qs.zip l) (A.rat 0 1) r.2
      .ok (some (f.1, l.map (·.1)), f.2)

/-- `interdep`, k_sim_main.cpp 321-332. -/
def interdep (A : Flo F) (o : SimOpts F) (t : Int) (qs : List (Unk F)) (s : Store F) :
    Res (Option (F × List F) × Store F) :=
  if A.lt o.relax (A.rat 0 1) = true then jacobi A o (A.abs o.relax) t qs s
  else gaussSeidel A o (A.abs o.relax) t qs (A.rat 0 1) s

/-- `restore_XK`, k_sim_main.cpp 153-158. -/
def restoreXK (t : Int) (qs : List (Unk F)) (xk : List F) (s : Store F) : Store F :=
  (qs.zip xk).foldl (fun s p => s.set p.1.2 t p.2) s

/-- The computations of `diverge`, k_sim_main.cpp 383-411. -/
def diverge (A : Flo F) (o : SimOpts F) (t : Int) : List (Unk F) → Store F → Res (Store F)
  | [], s => .ok s
  | q :: qs, s => (calcEq A o t q s).bind fun p => if A.isNum p.1 = false then .ok p.2 else diverge A o t qs p.2

/-- How the iterations of a period end. -/
inductive Iter (F : Type) where
  /-- `KSIM_NORM <= KSIM_EPS` -/
  | conv (xk : List F) (s : Store F)
  /-- an equation without value -/
  | noValue (s : Store F)
  /-- `KSIM_MAXIT` iterations -/
  | noConv (xk : List F) (s : Store F)

/-- The iterations, k_sim_main.cpp 453-480; `xk` is the content of `KSIM_XK`. -/
def iterate (A : Flo F) (o : SimOpts F) (t : Int) (qs : List (Unk F)) : Nat → List F → Store F → Res (Iter F)
  | 0, xk, s => .ok (.noConv xk s)
  | n + 1, _, s =>
    (interdep A o t qs s).bind fun r =>
      match r.1 with
      | none => .ok (.noValue r.2)
      | some (norm, xk) =>
        if A.lt norm o.eps = true ∨ A.eq norm o.eps = true then .ok (.conv xk r.2) else iterate A o t qs n xk r.2

/-- The three blocks with their unknowns. -/
structure Plan (F : Type) where
  pre : List (Unk F)
  inter : List (Unk F)
  post : List (Unk F)

/-- All equations in order. -/
def Plan.all (p : Plan F) : List (Unk F) := p.pre ++ p.inter ++ p.post

/-- `sub_simulate`, k_sim_main.cpp 439-501: success, `KSIM_XK` and the store. -/
def simPeriod (A : Flo F) (o : SimOpts F) (t : Int) (pl : Plan F) (xk : List F) (s : Store F) :
    Res (Bool × List F × Store F) :=
  (solveAll A o t pl.pre (initVals A o.start t pl.all s)).bind fun s =>
    (iterate A o t pl.inter o.maxit xk s).bind fun i =>
      match i with
      | .conv xk s => (solveAll A o t pl.post (restoreXK t pl.inter xk s)).bind fun s => .ok (true, xk, s)
      | .noValue s => .ok (false, xk, s)
      | .noConv xk s => (diverge A o t pl.inter (restoreXK t pl.inter xk s)).bind fun s => .ok (false, xk, s)

/-- The exchanged variables keep their value in all later periods, k_sim_main.cpp 689-704; `nb` is the number of periods of
the variables. -/
def carryOn (nb : Nat) (t : Int) (exos : List Nat) (s : Store F) : Store F :=
  fun w u => if w ∈ exos ∧ t < u ∧ u < nb then s w t else s w u

/-- The periods, k_sim_main.cpp 681-706: `n` periods from `t` on. -/
def simPeriods (A : Flo F) (o : SimOpts F) (nb : Nat) (pl : Plan F) (exos : List Nat) : Nat → Int → List F → Store F →
    Res (Bool × Store F)
  | 0, _, _, s => .ok (true, s)
  | n + 1, t, xk, s =>
    (simPeriod A o t pl xk s).bind fun r =>
      if r.1 = false then .ok (false, r.2.2)
      else simPeriods A o nb pl exos n (t + 1) r.2.1 (carryOn nb t exos r.2.2)

/-- The equation at a place of the order and its unknown. -/
def unkAt (eqs : List (Eqn F)) (e : Endo) (i : Nat) : Option (Unk F) :=
  match eqs[i]?, e.posxk[i]? with
  | some q, some v => some (q, v)
  | _, _ => none

/-- The plan of an order. -/
def planOf (eqs : List (Eqn F)) (e : Endo) (b : Blocks) : Plan F where
  pre := b.pre.filterMap (unkAt eqs e)
  inter := b.inter.filterMap (unkAt eqs e)
  post := b.post.filterMap (unkAt eqs e)

/-- `simulate` after linking and exchanging, k_sim_main.cpp 673-706: `n` periods from `t` on.  `KSIM_XK` is allocated with
zeros. -/
def simulate (A : Flo F) (o : SimOpts F) (sort : SortBy) (passes : Nat) (nb : Nat) (eqs : List (Eqn F)) (e : Endo)
    (exos : List Nat) (names : List (Option Nat)) (t : Int) (n : Nat) (s : Store F) : Res (Bool × Store F) :=
  (order sort passes e (eqs.map (·.objs)) names).bind fun b =>
    simPeriods A o nb (planOf eqs e b) exos n t (List.replicate b.inter.length (A.rat 0 1)) s

end Iode.Sim
