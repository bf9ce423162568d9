import Verif.Model.Kdb
import Verif.Model.Vars

/-!
# Reading chosen objects from a list of files

Models `KDB::copy_from` (api/objs/k_kdb.cpp:112-133) with `copy_from_file` of the template
(api/objs/kdb.h:984-1037) and of the variables (api/objs/k_wsvar.cpp:1085-1179). A file is its contents (reading it
is properties C17-C19); `none` is a file that cannot be loaded.
-/
namespace Iode

/-- The argument `objects_names`: `"*"`, the empty string, or a pattern, given as the function computing the names
    `expand` produces from the names of the file (a list of literal names is a constant function). -/
inductive Ask where
  | all
  | empty
  | names (f : List Name → List Name)

namespace World
variable {T : Type}

/-- `filter_names` (api/objs/kdb.h:308-365): nothing expanded or nothing found is an error. -/
def select (ty : ObjType) (d : Db) : Ask → Option (List Name)
  | .all => filterNames ty d none
  | .empty => filterNames ty d (some [])
  | .names f => if f d.objs.keys = [] then none else filterNames ty d (some (f d.objs.keys))

/-- `k_objs[name] = ...` for each object of the file. -/
def loadInto (ty : ObjType) (n : Nat) (w : World T) (file : SMap T) : World T :=
  file.foldl (fun w e => (w.set ty n e.1 e.2).1) w

/-- The names already read from a former file are removed (api/objs/kdb.h:1006-1018). -/
def dropFound (ty : ObjType) (n : Nat) (found : List Name) (w : World T) (ks : List Name) : World T :=
  ks.foldl (fun w k => if k ∈ found then (w.remove ty n k).1 else w) w

/-- The names to copy: those of the file not already read (api/objs/kdb.h:1006-1018). -/
def todo (ks found : List Name) : List Name := ks.filter (fun k => decide (k ∉ found))

/-- `copy_from_file` (api/objs/kdb.h:984-1037). The loop 1023-1034 is the loop of `merge` with overwriting.
    Returns the names found so far as well. -/
def copyFromFile (ty : ObjType) (w : World T) (i : Nat) (file : Option (SMap T)) (ask : Ask) (found : List Name) :
    World T × Res Bool × List Name :=
  match file with
  | none => (w, .ok false, found)
  | some f =>
    let n := w.nDbs
    let w1 := loadInto ty n (w.create .standalone).1 f
    match select ty (w1.dbs n) ask with
    | none => (w1, .ok false, found)
    | some ks =>
      match (dropFound ty n found w1 ks).mergeLoop ty i n true (todo ks found) with
      | (w2, .ok _) => (w2, .ok true, todo ks found ++ found)
      | (w2, r) => (w2, r, found)

/-- The loop of `copy_from` over the files (api/objs/k_kdb.cpp:119-130). -/
def copyLoop (ty : ObjType) (w : World T) (i : Nat) (ask : Ask) (found : List Name) :
    List (Option (SMap T)) → World T × Res Bool
  | [] => (w, .ok true)
  | f :: fs =>
    match copyFromFile ty w i f ask found with
    | (w1, .ok true, found1) => copyLoop ty w1 i ask found1 fs
    | (w1, r, _) => (w1, r)

/-- `copy_from` (api/objs/k_kdb.cpp:112-133). -/
def copyFrom (ty : ObjType) (w : World T) (i : Nat) (files : List (Option (SMap T))) (ask : Ask) :
    World T × Res Bool :=
  if files = [] then (w, .err) else copyLoop ty w i ask [] files

end World

namespace VWorld
variable {α : Type}

/-- Contents of a file of variables. -/
structure VFile (α : Type) where
  sample : Sample
  vars : SMap (List α)

/-- A fresh database with the sample and the variables of the file. -/
def loadVars (na : α) (v : VWorld α) (f : VFile α) : VWorld α :=
  f.vars.foldl (fun v e => (v.set (v.w.nDbs - 1) e.1 e.2).1) ((v.create false).1.setSample na v.w.nDbs f.sample).1

/-- `KDBVariables::copy_from_file` (api/objs/k_wsvar.cpp:1085-1146) without copy sample: the names are only used to
    remember what was found; `KV_merge` takes over every variable of the file. -/
def copyFromFile (na : α) (v : VWorld α) (i : Nat) (file : VFile α) (ask : Ask) (found : List Name) :
    VWorld α × Res Bool × List Name :=
  let n := v.w.nDbs
  let v1 := loadVars na v file
  match World.select ty (v1.w.dbs n) ask with
  | none => (v1, .ok false, found)
  | some ks =>
    let v2 : VWorld α := { v1 with w := World.dropFound ty n found v1.w ks }
    match v2.kvMerge na i n true with
    | (v3, .ok _) => (v3, .ok true, World.todo ks found ++ found)
    | (v3, r) => (v3, r, found)

end VWorld
end Iode
