import Verif.Model.DataCmd
import Verif.Model.Report

/-!
# Model of commands on the workspace of variables (api/report/commands/b_ws.cpp)

`$WsSample`, `$WsExtrapolate`, and the reading of the arguments of `$WsCopyVar`.

Simplifications
* `A_SEPS` has the separators `filter_names` gives it; `failed` stands for a code other than 0 and for an exception that leaves the command;
* what `$WsCopyVar` does with the arguments it has read is `CopyFrom`.
-/
namespace Iode.WsCmd

open Iode.Args (Text)
open Iode.DataCmd (Out left)

/-- `B_WsSample`, b_ws.cpp 270-312, with `B_ainit_chk` (api/b_args.cpp:58-74). -/
def sample {α : Type} (W : Args.World) (na : α) (v : VWorld α) (i : Nat) (arg : Text) : Out (VWorld α) :=
  match Args.init W arg with
  | .ok (some [a, b]) =>
    match Sample.ofStrings a b with
    | .ok s =>
      if s.nb ≤ 0 then .failed v
      else match v.setSample na i s with
        | (v', .ok true) => .done v'
        | (v', .ok false) => .failed v'
        | (v', .err) => .failed v'
        | (_, .ub) => .ub
    | .err => .failed v
    | .ub => .ub
  | .ok _ => .failed v
  | _ => .ub

/-- `enum VariablesInitialization` (api/objs/variables.h:39-48). -/
def methodOf (k : Int) : Option InitMethod :=
  if k < 0 then none
  else [.tm1, .tm1A, .extra, .extraA, .asis, .tm1NA, .extraNA][k.toNat]?

/-- The names of the variables one behind the other, b_ws.cpp 577-582. -/
def commas : List Text → Text
  | [] => []
  | [w] => w
  | w :: ws => w ++ ',' :: commas ws

/-- The arguments of `B_WsExtrapolate`, b_ws.cpp 539-583: method, sample and pattern, `none` for -1.  There is a null pointer behind the last argument, of which
no `std::string` can be made; what is behind it is not read then. -/
def extrapolateArgs (ws : List Text) : Res (Option (InitMethod × Sample × Text)) :=
  if ws.length < 2 then .ok none
  else match Report.atoi (ws.headD []) with
    | none => .ub
    | some k =>
      let m := (methodOf k).getD .tm1
      let p := if (methodOf k).isSome then 1 else 0
      match ws.drop p with
      | a :: b :: names =>
        match Sample.ofStrings a b with
        | .ok s => if s.nb ≤ 0 then .ok none else .ok (some (m, s, if names = [] then ['*'] else commas names))
        | .err => .ok none
        | .ub => .ub
      | _ => .ub

/-- `KDB::filter_names` (api/objs/kdb.h:308-365) with `KDB::expand` (api/objs/k_grep.cpp:180-212) for variables: `err` for `std::runtime_error`. -/
def filterNames (W : Args.World) (keys : List Name) (pattern : Text) : Res (List Name) :=
  if pattern = [] then .ok []
  else if pattern = ['*'] then .ok keys
  else match Grep.expand Grep.noCase '*' keys ((pattern.splitOnP (· ∈ W.sp)).map trim) with
    | .ok l =>
      if Lists.join l = [] then .err
      else match Args.init W (Lists.join l) with
        | .ok r =>
          let ks := keys.filter fun k => (r.getD []).any fun n => toKey .variables n == k
          if ks = [] then .err else .ok ks
        | _ => .ub
    | _ => .ub

/-- `B_WsExtrapolate`, b_ws.cpp 532-594, with `KV_extrapolate` (api/objs/k_wsvar.cpp:438-472): the names are looked up when the sample has been found right. -/
def extrapolate {F : Type} [Field F] (isZero : F → Bool) (W : Args.World) (v : VWorld (Option F)) (i : Nat) (arg : Text) : Out (VWorld (Option F)) :=
  match Args.init W arg with
  | .ok r =>
    match extrapolateArgs (r.getD []) with
    | .ok none => .failed v
    | .ok (some (m, s, pattern)) =>
      match filterNames W (v.w.dbs i).objs.keys pattern with
      | .ok ks =>
        match v.extrapolate isZero m i s ks with
        | (v', .ok true) => .done v'
        | (_, .ub) => .ub
        | (v', _) => .failed v'
      | .err =>
        match v.extrapolate isZero m i s [] with
        | (_, .ub) => .ub
        | _ => .failed v
      | .ub => .ub
    | _ => .ub
  | _ => .ub

/-! ## Arguments of `$WsCopyVar` -/

/-- `data.erase(data.find(x), x.length())`, b_ws.cpp 437-443. -/
def eraseFirst (x : Text) : Text → Text
  | [] => []
  | c :: r => if x.isPrefixOf (c :: r) then (c :: r).drop x.length else c :: eraseFirst x r

/-- The separators of b_ws.cpp:406 and 425. -/
def csep : List Char := [' ', ',', ';', '\t', '\n']

/-- What `copy_from` is called with. -/
structure Copy where
  files : List Text
  first : Text
  last : Text
  data : Text
  deriving DecidableEq

/-- `B_WsCopy`, b_ws.cpp 402-480, for variables up to the call of `copy_from`: `none` for -1.  `c_files` is an array of 513 characters, the name is cut at 511 (`B_get_arg0`,
api/b_args.cpp:183-196).  `own` are the periods of the sample of the workspace as texts, `none` without sample. -/
def copyArgs (own : Option (Text × Text)) (arg : Text) : Res (Option Copy) :=
  let t := left arg
  let f := (t.take 511).takeWhile (· ∉ DataCmd.bseps)
  let files := f.splitOnP (· ∈ csep)
  let data := trim (t.drop f.length)
  if data = [] then .ok none
  else match data.splitOnP (· ∈ csep) with
    | a :: b :: _ =>
      if isDigitC (a.headD '\x00') && isDigitC (b.headD '\x00') then
        match Sample.ofStrings a b with
        | .ok _ =>
          let d := trim (eraseFirst b (eraseFirst a data))
          if d = [] then .ok none else .ok (some ⟨files, a, b, d⟩)
        | .err => .ok none
        | .ub => .ub
      else match own with
        | none => .ok none
        | some (x, y) => .ok (some ⟨files, x, y, data⟩)
    | _ => .ok (some ⟨files, [], [], data⟩)

end Iode.WsCmd
