import Verif.Model.Idt
import Mathlib.Algebra.Order.Field.Rat

/-!
# Model of the aggregation of variables (api/objs/k_grep.cpp K_aggr, api/objs/k_wsvar.cpp KV_aggregate, api/report/commands/b_ws.cpp B_WsAggr)

The values are exact numbers, the missing value is the number `-2e37` as in the code.  The source of the variables (the workspace or a file
already loaded) is given with its number of periods.
-/
namespace Iode.Aggr

open Iode.Idt

/-- `IODE_NAN`, constants.h 123. -/
def na : Rat := -2 * 10 ^ 37

/-- `IODE_IS_A_NUMBER`, constants.h 228. -/
def isNum (x : Rat) : Bool := decide (-(10 ^ 37) ≤ x)

/-- The loop of `K_aggr`, k_grep.cpp 229-263: `inb` is true between brackets, `ch` is `K_AggrChar`.  `inp` is never used. -/
def aggrLoop (ch : Char) : Bool → List Char → List Char → Option (List Char)
  | _, [], e => if e = [] then some [] else none
  | inb, p :: ps, e =>
    if e = [] ∧ p ≠ ']' ∧ p ≠ ')' then none
    else if p = '(' ∨ p = ')' then aggrLoop ch inb ps e
    else if p = '[' then aggrLoop ch true ps e
    else if p = ']' then aggrLoop ch false ps e
    else match e with
      | [] => none
      | c :: cs =>
        if p = '?' then
          if inb && decide (c = ch) then none else (aggrLoop ch inb ps cs).map fun r => (if inb then ch else c) :: r
        else if p = c then (aggrLoop ch inb ps cs).map fun r => c :: r
        else none

/-- `K_aggr`, k_grep.cpp 225-270: the string ends at the first null character, `SCR_sqz` (scr4/s_stsqz.c 47-58) removes the blanks. -/
def aggrName (ch : Char) (pattern ename : Name) : Option Name :=
  (aggrLoop ch false pattern ename).map fun r => (r.takeWhile (· ≠ '\x00')).filter (· ≠ ' ')

/-- One value added to an aggregate, k_wsvar.cpp 556-579. -/
def combine (method : Int) (old new : Rat) : Rat :=
  if isNum new then (if method = 1 then old * new else old + new) else na

/-- `ndbv`, `times` (`none` is not initialised) and `npos`. -/
structure St where
  m : SMap (List Rat)
  times : Nat → Option Nat
  npos : Nat

/-- One variable of the source, k_wsvar.cpp 524-581: the positions are those in the sorted map at that moment.  An invalid name throws. -/
def step (ch : Char) (method : Int) (pattern : Name) (st : St) (e : Name × List Rat) : Res St :=
  match aggrName ch pattern e.1 with
  | none => .ok st
  | some n =>
    let key := toKey .variables n
    match st.m.find key with
    | none =>
      if checkName .variables key then
        let m := st.m.insert key e.2
        let p := m.keys.idxOf key
        .ok ⟨m, fun i => if i = p then some 1 else st.times i, p⟩
      else .err
    | some old =>
      let p := st.m.keys.idxOf key
      .ok ⟨st.m.insert key (List.zipWith (combine method) old e.2), fun i => if i = p then (st.times p).map (· + 1) else st.times i, p⟩

/-- The loop over the variables of the source. -/
def loop (ch : Char) (method : Int) (pattern : Name) : St → List (Name × List Rat) → Res St
  | st, [] => .ok st
  | st, e :: es => (step ch method pattern st e).bind fun st => loop ch method pattern st es

/-- The division of `WsAggrMean`, k_wsvar.cpp 583-593: `times[npos]` for all the variables. -/
def finish (method : Int) (st : St) : Res (SMap (List Rat)) :=
  if method = 2 then
    match st.m, st.times st.npos with
    | [], _ => .ok []
    | _, none => .ub
    | m, some k => .ok (m.map fun e => (e.1, e.2.map fun x => if isNum x then x / k else x))
  else .ok st.m

/-- `KV_aggregate`, k_wsvar.cpp 486-598.  Without a sample `times` is freed before it is allocated. -/
def aggregate (ch : Char) (method : Int) (pattern : Name) (nb : Int) (src : SMap (List Rat)) : Res (SMap (List Rat)) :=
  if nb = 0 then .ub
  else (loop ch method pattern ⟨[], fun _ => none, 0⟩ src).bind (finish method)

/-- `B_WsAggr`, b_ws.cpp 604-630: `src` are the variables of the workspace or of the file, over `es`. -/
def wsAggr (ch : Char) (method : Int) (pattern : Name) (ws : VarDb Rat) (vs es : Sample) (src : SMap (List Rat)) : Res (VarDb Rat) :=
  (aggregate ch method pattern es.nb src).bind fun m => mergeDel na ws vs es m

end Iode.Aggr
