import Verif.Model.DataCmd
import Verif.Model.Report

/-!
# Model of the commands of reports that describe how equations are estimated (api/report/commands/b_est.cpp)

`$EqsSetSample`, `$EqsSetMethod`, `$EqsSetBlock`, `$EqsSetCmt` and `$EqsSetInstrs`.

Simplifications
* a workspace is its map; an equation has the fields the commands change and the rest of it;
* `$EqsEstimate` is not modelled here.
-/
namespace Iode.EqsCmd

open Iode.Args (Text)
open DataCmd (Out bseps left arg0 loop)

/-- What the commands change of an equation (api/objs/equations.h:118-131), and the rest. -/
structure Eqn (R : Type) where
  rest : R
  sample : Option Sample
  method : Int
  block : Text
  comment : Text
  instruments : Text
  deriving DecidableEq

variable {R : Type}

/-- `get_obj_ptr` (api/objs/kdb.h:1097-1115) and a change of the object: the function never gives a null pointer, it throws `std::invalid_argument`. -/
def change (f : Eqn R → Eqn R) (st : SMap (Eqn R)) (name : Text) : Out (SMap (Eqn R)) :=
  if toKey .equations name = [] then .thrown st
  else match st.find (toKey .equations name) with
    | none => .thrown st
    | some e => .done (st.insert (toKey .equations name) (f e))

/-- `split_multi`, api/utils/utils.h 251-267: empty pieces stay. -/
def splitMulti (t : Text) : List Text := t.splitOnP (· ∈ bseps)

/-- `B_EqsSetSample`, b_est.cpp 142-165 with `B_EqsSplitSmplName`, 39-65. -/
def setSample (st : SMap (Eqn R)) (arg : Text) : Out (SMap (Eqn R)) :=
  match splitMulti arg with
  | p :: q :: names =>
    match (Period.parse p).bind fun a => (Period.parse q).bind fun b => Sample.ofPeriods a b with
    | .ok s => loop (change fun e => { e with sample := some s }) names st
    | .err => .failed st
    | .ub => .ub
  | _ => .failed st

/-- `(char) meth`. -/
def toChar (n : Int) : Int := (n + 128) % 256 - 128

/-- The loops over the names: `eqs` may be null. -/
def forAll (W : Args.World) (f : List Text → Eqn R → Eqn R) (arg : Text) (st : SMap (Eqn R)) : Out (SMap (Eqn R)) :=
  match Args.init W arg with
  | .ok (some ws) => loop (change (f ws)) ws st
  | _ => .ub

/-- `B_EqsSetMethod`, b_est.cpp 186-211: `tmeth` takes 14 characters. -/
def setMethod (W : Args.World) (st : SMap (Eqn R)) (arg : Text) : Out (SMap (Eqn R)) :=
  let a := left arg
  let t := (a.take 14).takeWhile (· ∉ bseps)
  match Report.atoi t with
  | none => .ub
  | some m => forAll W (fun _ e => { e with method := toChar m }) (a.drop t.length) st

/-- `B_EqsSetBloc`, b_est.cpp 225-250. -/
def setBlock (W : Args.World) (st : SMap (Eqn R)) (arg : Text) : Out (SMap (Eqn R)) :=
  forAll W (fun ws e => { e with block := Lists.join ws }) arg st

/-- `B_EqsSetCmt` and `B_EqsSetInstrs`, b_est.cpp 265-279, 294-308: `name` takes 15 characters, `B_get_arg0` writes up to 20; the text begins behind the character
behind the name, which is outside the argument when there is none. -/
def setText (f : Text → Eqn R → Eqn R) (st : SMap (Eqn R)) (arg : Text) : Out (SMap (Eqn R)) :=
  let a := left arg
  let name := arg0 a
  if 16 ≤ name.length then .ub
  else if a.drop name.length = [] then .ub
  else change (f (a.drop (name.length + 1))) st name

/-- `B_EqsSetCmt`, b_est.cpp 265-279. -/
def setComment (st : SMap (Eqn R)) (arg : Text) : Out (SMap (Eqn R)) := setText (fun t e => { e with comment := t }) st arg

/-- `B_EqsSetInstrs`, b_est.cpp 294-308. -/
def setInstruments (st : SMap (Eqn R)) (arg : Text) : Out (SMap (Eqn R)) := setText (fun t e => { e with instruments := t }) st arg

end Iode.EqsCmd
