import Verif.Model.Args
import Verif.Model.Grep
import Verif.Model.Lists
import Verif.Model.LecLex
import Verif.Model.RepFn
import Verif.Model.Sample
import Verif.Model.VarModes

/-!
# Model of the commands of reports that change the objects (api/report/commands/b_data.cpp, api/b_args.cpp)

`$DataCreate`, `$DataDelete`, `$DataRename`, `$DataDuplicate`, `$DataUpdate` (variables, scalars, comments and lists), `$DataAppend`, `$DataExist`,
`$DataList` and `$DataSearch` (in names).

Simplifications
* a workspace is its map; it has no subset, and nothing else is registered for it;
* doubles are elements of a field, `rnd` gives the one for a decimal number; `atof` reads decimal numbers (not `inf`, `nan` and hexadecimal ones);
* the memory `K_expand` gets with `new` is given back with `SCR_free` in `B_DataDelete`: this is not modelled;
* the arguments of `$DataList` and `$DataSearch` are given as the words they are split in;
* equations, identities and tables are not updated here.
-/
namespace Iode.DataCmd

open Iode.Args (Text)

/-- What a command does: 0 is returned, another code is returned, `std::invalid_argument` leaves the command (only `std::runtime_error` is caught), or the
behaviour is undefined. -/
inductive Out (σ : Type) where
  | done (s : σ)
  | failed (s : σ)
  | thrown (s : σ)
  | ub
  deriving DecidableEq

/-- `K_MAX_NAME`, api/constants.h. -/
def maxName : Nat := 20

/-- `B_SEPS`, api/constants.h:220. -/
def bseps : List Char := [' ', ',', '\n', '\t']

/-- `KDB::contains` (api/objs/kdb.h:726-743). -/
def has {V : Type} (ty : ObjType) (db : SMap V) (name : Text) : Bool :=
  match ty with
  | .comments => db.keys.any (fun k => toLower k == toLower (trim name))
  | _ => db.has (toKey ty name)

/-- `KDBTemplate::set` (api/objs/kdb.h:1119-1202): `none` for `std::invalid_argument`. -/
def put {V : Type} (ty : ObjType) (db : SMap V) (name : Text) (v : V) : Option (SMap V) :=
  if checkName ty (toKey ty name) then some (db.insert (toKey ty name) v) else none

/-! ## Loops over the arguments -/

/-- `B_loop`, b_args.cpp 125-141. -/
def loop {σ : Type} (f : σ → Text → Out σ) : List Text → σ → Out σ
  | [], s => .done s
  | w :: ws, s =>
    match f s w with
    | .done s' => loop f ws s'
    | o => o

/-- `B_ainit_loop`, b_args.cpp 155-164. -/
def ainitLoop {σ : Type} (W : Args.World) (f : σ → Text → Out σ) (arg : Text) (s : σ) : Out σ :=
  match Args.init W arg with
  | .ok (some ws) => loop f ws s
  | .ok none => .failed s
  | _ => .ub

/-- `B_get_arg0`, b_args.cpp 183-195: the argument is changed (tabs, blanks in front), the name is copied.  `U_ljust_text` (scr4/s_stljus.c 18-28) leaves a text
of blanks. -/
def left (arg : Text) : Text :=
  let t := arg.map fun c => if c = '\t' then ' ' else c
  if t.dropWhile isSpaceC = [] then t else t.dropWhile isSpaceC

def arg0 (t : Text) : Text := (t.take maxName).takeWhile (· ∉ bseps)

/-! ## Create, delete, rename, duplicate -/

/-- `B_DataCreate_1`, b_data.cpp 310-379: `fresh` is the new object, `none` when `std::runtime_error` is thrown. -/
def create1 {V : Type} (ty : ObjType) (fresh : Text → Res (Option V)) (db : SMap V) (name : Text) : Out (SMap V) :=
  if has ty db name then .failed db
  else match fresh name with
    | .ok (some v) =>
      match put ty db name v with
      | some db' => .done db'
      | none => .thrown db
    | .ok none => .failed db
    | .err => .thrown db
    | .ub => .ub

/-- `B_DataCreate`, b_data.cpp 398-401. -/
def create {V : Type} (W : Args.World) (ty : ObjType) (fresh : Text → Res (Option V)) (db : SMap V) (arg : Text) : Out (SMap V) :=
  ainitLoop W (create1 ty fresh) arg db

/-- The new variable, b_data.cpp 361-369. -/
def freshVar {F : Type} (smp : Option Sample) (_ : Text) : Res (Option (List (Option F))) :=
  .ok (smp.map fun s => List.replicate s.nb.toNat none)

/-- The new equation, b_data.cpp 331-339: `char deflt[41]` takes the name twice, ` := ` and the final 0.  `eqn` is the constructor. -/
def freshEq {V : Type} (eqn : Text → Text → Res (Option V)) (name : Text) : Res (Option V) :=
  if 2 * name.length + 4 ≥ 41 then .ub else eqn name (name ++ " := ".toList ++ name)

/-- `B_DataDelete_1`, b_data.cpp 413-436 with `KDBTemplate::remove` (api/objs/kdb.h:889-910). -/
def delete1 {V : Type} (ty : ObjType) (db : SMap V) (name : Text) : Out (SMap V) :=
  if has ty db name then .done (db.erase (toKey ty name)) else .failed db

/-- `B_DataDelete`, b_data.cpp 455-464 with `K_expand` (api/objs/k_grep.cpp:112-170) and `KDB::expand` (180-212).  No name at all: `A_init` gets a null pointer
and gives an empty table. -/
def delete {V : Type} (W : Args.World) (ty : ObjType) (db : SMap V) (arg : Text) : Out (SMap V) :=
  match Grep.expand Grep.noCase '*' db.keys ((arg.splitOnP (· ∈ W.sp)).map trim) with
  | .ok l => ainitLoop W (delete1 ty) (Lists.join l) db
  | _ => .ub

/-- `B_DataRename`, b_data.cpp 479-512 with `KDBTemplate::rename` (api/objs/kdb.h:840-887). -/
def rename {V : Type} (W : Args.World) (ty : ObjType) (db : SMap V) (arg : Text) : Out (SMap V) :=
  if ty = .equations then .failed db
  else match Args.init W arg with
    | .ok (some [o, n]) =>
      if db = [] then .failed db
      else if checkName ty (toKey ty n) = false then .thrown db
      else if has ty db (toKey ty o) = false then .thrown db
      else if has ty db (toKey ty n) then .thrown db
      else match db.find (toKey ty o) with
        | none => .thrown db
        | some v => .done ((db.erase (toKey ty o)).insert (toKey ty n) v)
    | .ok _ => .failed db
    | _ => .ub

/-- `B_DataDuplicate`, b_data.cpp 526-570 with `KDBTemplate::duplicate` (api/objs/kdb.h:932-962) on the workspace itself. -/
def duplicate {V : Type} (W : Args.World) (ty : ObjType) (db : SMap V) (arg : Text) : Out (SMap V) :=
  if ty = .equations then .failed db
  else match Args.init W arg with
    | .ok (some [o, n]) =>
      if o = n then .failed db
      else if has ty db o = false then .failed db
      else
        let db1 := if has ty db n then db.erase (toKey ty n) else db
        if has ty db1 o = false then .failed db1
        else match db1.find (toKey ty o) with
          | none => .thrown db1
          | some v =>
            match put ty db1 n v with
            | some db2 => .done db2
            | none => .thrown db1
    | .ok _ => .failed db
    | _ => .ub

/-- `B_DataExist`, b_data.cpp 1113-1125. -/
def exist {V : Type} (ty : ObjType) (db : SMap V) (arg : Text) : Bool := has ty db arg

/-! ## Texts: comments and lists -/

/-- The first part of `B_DataUpdate`, b_data.cpp 586-605: the object is created when it is missing. -/
def ensure {V : Type} (W : Args.World) (ty : ObjType) (fresh : Text → Res (Option V)) (db : SMap V) (name : Text) : Out (SMap V) :=
  if has ty db name then .done db else create W ty fresh db name

/-- `B_DataUpdate` for comments and lists, b_data.cpp 586-612, 625-630.  `arg + lg + 1` is outside the text when there is nothing behind the name. -/
def updateText (W : Args.World) (ty : ObjType) (st : SMap Text) (arg : Text) : Out (SMap Text) :=
  let a := left arg
  let name := arg0 a
  match ensure W ty (fun _ => .ok (some [])) st name with
  | .done st1 =>
    if a.drop name.length = [] then .ub
    else if has ty st1 (toKey ty name) = false then .thrown st1
    else match put ty st1 (toKey ty name) (a.drop (name.length + 1)) with
      | some st2 => .done st2
      | none => .thrown st1
  | o => o

/-- `B_DataAppend`, b_data.cpp 1142-1196; `sep` is a blank for comments and a comma for lists. -/
def append (ty : ObjType) (sep : Char) (st : SMap Text) (arg : Text) : Out (SMap Text) :=
  let a := left arg
  let name := arg0 a
  if a.drop name.length = [] then .ub
  else
    let t := a.drop (name.length + 1)
    if has ty st name then
      match st.find (toKey ty name) with
      | none => .thrown st
      | some old =>
        match put ty st (toKey ty name) (old ++ sep :: t) with
        | some st' => .done st'
        | none => .thrown st
    else
      match put ty st name t with
      | some st' => .done st'
      | none => .thrown st

/-! ## Numbers -/

/-- The digits and the exponent behind `e` or `E` in `strtod`: nothing without digits. -/
def expPart : Text → Int
  | [] => 0
  | c :: r =>
    if c = 'e' ∨ c = 'E' then
      match r with
      | '-' :: ds => -(Lec.natOf (ds.takeWhile isDigitC) : Int)
      | '+' :: ds => Lec.natOf (ds.takeWhile isDigitC)
      | ds => Lec.natOf (ds.takeWhile isDigitC)
    else 0

/-- The digits behind a point, and the rest. -/
def fracPart : Text → Text × Text
  | '.' :: r => (r.takeWhile isDigitC, r.dropWhile isDigitC)
  | r => ([], r)

/-- The number at the beginning of a text without sign: digits, point, digits, exponent; 0 when there is no digit. -/
def unsignedOf (t : Text) : Rat :=
  let i := t.takeWhile isDigitC
  let p := fracPart (t.dropWhile isDigitC)
  if i ++ p.1 = [] then 0
  else (Lec.natOf (i ++ p.1) : Rat) * (10 : Rat) ^ (expPart p.2 - (p.1.length : Int))

/-- `atof` of a word (without blanks). -/
def atof (t : Text) : Rat :=
  match t with
  | '-' :: r => -unsignedOf r
  | '+' :: r => unsignedOf r
  | r => unsignedOf r

/-! ## Scalars -/

structure Scl (F : Type) where
  value : F
  relax : F
  std : Option F
  deriving DecidableEq

/-- `B_DataUpdate` for scalars, b_data.cpp 586-605, 648-669; a new scalar is `Scalar()` (api/objs/scalars.h:22). -/
def updateScl {F : Type} (rnd : Rat → F) (W : Args.World) (st : SMap (Scl F)) (arg : Text) : Out (SMap (Scl F)) :=
  let a := left arg
  let name := arg0 a
  match ensure W .scalars (fun _ => .ok (some ⟨rnd (9 / 10), rnd 1, none⟩)) st name with
  | .done st1 =>
    if a.drop name.length = [] then .ub
    else match RepFn.vtoms bseps (a.length + 1) a, st1.find (toKey .scalars name) with
      | .ok _, none => .thrown st1
      | .ok [_, v], some s => .done (st1.insert (toKey .scalars name) { s with value := rnd (atof v) })
      | .ok [_, v, r], some s => .done (st1.insert (toKey .scalars name) { s with value := rnd (atof v), relax := rnd (atof r) })
      | .ok _, some _ => .failed st1
      | _, _ => .ub
  | o => o

/-! ## Variables -/

section
variable {F : Type} [Field F] [DecidableEq F]

/-- The value of a word, b_data.cpp 720-722. -/
def reading (rnd : Rat → F) (w : Text) : Option F :=
  if rnd (atof w) = 0 ∧ (∀ c ∈ w.head?, c ∉ ['-', '0', '.', '+']) then none else some (rnd (atof w))

/-- The mode and the position of the period, b_data.cpp 677-701. -/
def modeOf (w : Text) : VarMode × Nat :=
  match w with
  | [] => (.level, 1)
  | c :: r =>
    if c = 'd' ∨ c = 'D' then (if r.head? = some 'Y' ∨ r.head? = some 'y' then .yoyDiff else .diff, 2)
    else if c = 'g' ∨ c = 'G' then (if r.head? = some 'Y' ∨ r.head? = some 'y' then .yoyGrowth else .growth, 2)
    else if c = 'l' ∨ c = 'L' then (.level, 2)
    else (.level, 1)

/-- The calls of `KV_set` (api/objs/k_wsvar.cpp:300-364) one after the other on one variable, b_data.cpp 718-724.  Positions behind the sample are left out. -/
def enter (m : VarMode) (lag : Int) (nb : Int) : List (Option F) → Nat → List (Option F) → Res (List (Option F))
  | x, _, [] => .ok x
  | x, t, v :: vs =>
    if (t : Int) ≥ nb then enter m lag nb x (t + 1) vs
    else (modeSet m lag x t v).bind fun x' => enter m lag nb x' (t + 1) vs

/-- `B_DataUpdate` for variables, b_data.cpp 586-605, 670-735.  The sample is that of the workspace. -/
def updateVar (rnd : Rat → F) (W : Args.World) (smp : Option Sample) (db : SMap (List (Option F))) (arg : Text) : Out (SMap (List (Option F))) :=
  let a := left arg
  let name := arg0 a
  match ensure W .variables (freshVar smp) db name with
  | .done db1 =>
    if a.drop name.length = [] then .ub
    else match RepFn.vtoms bseps (a.length + 1) a with
      | .ok (_ :: w1 :: ws) =>
        let mp := modeOf w1
        match (w1 :: ws).drop (mp.2 - 1) with
        | [] => .ub
        | p :: vals =>
          match Period.parse p with
          | .err => .thrown db1
          | .ub => .ub
          | .ok per =>
            match smp with
            | none => .ub
            | some s =>
              match s.stop.difference per, per.difference s.start with
              | .ok d, .ok shift =>
                if shift < 0 then .failed db1
                else
                  match nbPeriodsPerYear s.start.periodicity, db1.find (toKey .variables name) with
                  | .ok q, some x =>
                    match enter mp.1 (mp.1.lag q) s.nb x shift.toNat ((vals.take (d + 1).toNat).map (reading rnd)) with
                    | .ok y => .done (db1.insert (toKey .variables name) y)
                    | .err => .thrown db1
                    | .ub => .ub
                  | .ok _, none => .done db1
                  | _, _ => .thrown db1
              | .err, _ => .failed db1
              | _, .err => .failed db1
              | _, _ => .ub
      | .ok _ => .failed db1
      | _ => .ub
  | o => o

end

/-! ## Lists of names -/

/-- `B_DataList` on the workspace, b_data.cpp 1228-1312, with the two words. -/
def list {V : Type} (db : SMap V) (st : Lists.Store) (name pattern : Text) : Res Lists.Out :=
  (Grep.grepNames Grep.noCase '*' pattern db.keys).bind fun l => Lists.split st name l 200

/-- `B_DataSearch` in names, b_data.cpp 767-840: `word` and `in_formula` and `in_text` are 0, `in_name` is 1.  `buf` takes 76 characters. -/
def search {V : Type} (env : Grep.Env) (db : SMap V) (st : Lists.Store) (mask name : Text) : Res Lists.Out :=
  (Grep.grepNames env '*' (('*' :: mask.take 76) ++ ['*']) db.keys).bind fun l => Lists.split st name l 200

end Iode.DataCmd
