import Verif.Model.Names
import Verif.Model.SMap

/-!
# Workspaces (`KDBTemplate`, api/objs/kdb.h:417-1250)

All the databases of one object type live in a `World`. A database is known by its number (its address in
C++), an object by its number in the heap (the `shared_ptr`). Names map to objects; shallow subsets share
objects with the database they were taken from.

Simplifications
* databases are never destroyed (destroying a database runs `clear()`, which is modelled); the only effect left
  out is the expiry of `db_parent` for a subset that was cleared before its parent was destroyed;
* descriptive fields (description, file path, compression flag) are left out;
* warnings are left out; an exception is the outcome `err`;
* `KDBVariables` adds the sample and the length of the variables, see `Verif/Model/Vars.lean`.
-/
namespace Iode

/-- `k_db_type` (api/objs/kdb.h:36-38). -/
inductive DbKind where
  | global | standalone | subset
  deriving Repr, DecidableEq

/-- One `KDBTemplate` object: `k_db_type`, `db_parent`, `children_db`, `k_objs` (api/objs/kdb.h:425-434). -/
structure Db where
  kind : DbKind
  parent : Option Nat
  children : List Nat
  objs : SMap Nat
  deriving Repr, DecidableEq

/-- The state seen by the operations: databases and objects. -/
structure World (T : Type) where
  /-- databases by number -/
  dbs : Nat → Db
  /-- number of databases created so far -/
  nDbs : Nat
  /-- objects by address (only addresses below `nHeap` are in use) -/
  heap : Nat → T
  /-- next free address -/
  nHeap : Nat

namespace Db

/-- `contains` (api/objs/kdb.h:726-743): case-insensitive scan for comments, exact key otherwise. -/
def contains (ty : ObjType) (d : Db) (name : Name) : Bool :=
  match ty with
  | .comments => d.objs.keys.any (fun k => toLower k == toLower (trim name))
  | _ => d.objs.has (toKey ty name)

/-- `get_key` (api/objs/kdb.h:752-774): the *last* case-insensitive match for comments; empty when absent. -/
def getKey (ty : ObjType) (d : Db) (name : Name) : Name :=
  match ty with
  | .comments => d.objs.keys.foldl (fun acc k => if toLower k == toLower (trim name) then k else acc) []
  | _ => if d.contains ty (toKey ty name) then toKey ty name else []

/-- `get_obj_ptr` (api/objs/kdb.h:1097-1116): throws when the name is absent. -/
def getObjPtr (ty : ObjType) (d : Db) (name : Name) : Option Nat :=
  let key := d.getKey ty name
  if key = [] then none else d.objs.find key

/-- A fresh database (`D::Create`). -/
def empty (kind : DbKind) : Db := ⟨kind, none, [], []⟩

end Db

namespace World
variable {T : Type}

/-- No database, no object. -/
def init [Inhabited T] : World T := ⟨fun _ => Db.empty .standalone, 0, fun _ => default, 0⟩

/-- Change one database. -/
def modDb (w : World T) (i : Nat) (f : Db → Db) : World T :=
  { w with dbs := fun j => if j = i then f (w.dbs i) else w.dbs j }

/-- Loop over a set of databases, each step changing only the database it visits (the `for(subset : get_children_db())`
    loops; `children_db` is a `std::set` of distinct pointers). -/
def modAll (w : World T) (is : List Nat) (f : Db → Db) : World T :=
  { w with dbs := fun j => if j ∈ is then f (w.dbs j) else w.dbs j }

/-- `std::make_shared<T>(obj)`: a new object. -/
def alloc (w : World T) (v : T) : World T × Nat :=
  ({ w with heap := fun a => if a = w.nHeap then v else w.heap a, nHeap := w.nHeap + 1 }, w.nHeap)

/-- `get_top_level_db` (api/objs/kdb.h:508-535). `none`: the exception for a subset without parent. -/
def topOf (w : World T) (i : Nat) : Option Nat :=
  match (w.dbs i).kind with
  | .subset => (w.dbs i).parent
  | _ => some i

/-- `get_children_db` (api/objs/kdb.h:537-550). -/
def childrenOf (w : World T) (i : Nat) : List Nat :=
  match (w.dbs i).kind with
  | .subset => match (w.dbs i).parent with
    | some p => (w.dbs p).children
    | none => []
  | _ => (w.dbs i).children

/-- `k_objs[key] = obj_ptr` on one database. -/
def putObj (key : Name) (a : Nat) (d : Db) : Db := { d with objs := d.objs.insert key a }

/-- `set_obj_ptr_no_check` (api/objs/kdb.h:484-505) with the top-level database already found. -/
def setNoCheck (ty : ObjType) (w : World T) (i top : Nat) (key : Name) (a : Nat) : World T :=
  let kids := w.childrenOf i
  let w1 := w.modDb i (putObj key a)
  let w2 := if (w.dbs i).kind = .subset then w1.modDb top (putObj key a) else w1
  w2.modAll kids (fun d => if d.contains ty key then putObj key a d else d)

/-- `set_obj_ptr` (api/objs/kdb.h:1119-1180). -/
def setObjPtr (ty : ObjType) (w : World T) (i : Nat) (name : Name) (a : Nat) : World T × Res Bool :=
  let key := toKey ty name
  if key = [] then (w, .err)
  else if checkName ty key = false then (w, .err)
  else match w.topOf i with
    | none => (w, .err)
    | some top =>
      -- a subset looks in the top-level database, another database looks in itself: `topOf` in both cases
      let existing := (w.dbs top).getKey ty key
      if existing ≠ [] ∧ (w.dbs top).objs.find existing = some a then (w, .ok true)
      else
        let (w1, a1) := w.alloc (w.heap a)
        (w1.setNoCheck ty i top key a1, .ok true)

/-- `set` (api/objs/kdb.h:1194-1202). -/
def set (ty : ObjType) (w : World T) (i : Nat) (name : Name) (v : T) : World T × Res Bool :=
  let (w1, a) := w.alloc v
  w1.setObjPtr ty i name a

/-- `parent_contains` (api/objs/kdb.h:777-787). -/
def parentContains (ty : ObjType) (w : World T) (i : Nat) (name : Name) : Bool :=
  match (w.dbs i).kind with
  | .subset => match (w.dbs i).parent with
    | some p => (w.dbs p).contains ty name
    | none => false
  | _ => false

/-- `add` (api/objs/kdb.h:1204-1236). -/
def add (ty : ObjType) (w : World T) (i : Nat) (name : Name) (v : T) : World T × Res Bool :=
  let key := toKey ty name
  if key = [] then (w, .err)
  else if checkName ty key = false then (w, .err)
  else if (w.dbs i).contains ty key then (w, .err)
  else if w.parentContains ty i key then (w, .err)
  else match w.topOf i with
    | none => (w, .err)
    | some top =>
      let (w1, a) := w.alloc v
      (w1.setNoCheck ty i top key a, .ok true)

/-- `update` (api/objs/kdb.h:1238-1249). -/
def update (ty : ObjType) (w : World T) (i : Nat) (name : Name) (v : T) : World T × Res Bool :=
  let key := toKey ty name
  if (w.dbs i).contains ty key then w.set ty i key v else (w, .err)

/-- `rename` (api/objs/kdb.h:840-887). -/
def rename (ty : ObjType) (w : World T) (i : Nat) (old new : Name) (overwrite : Bool) : World T × Res Bool :=
  let okey := toKey ty old
  let nkey := toKey ty new
  if ty = .equations then (w, .err)
  else if (w.dbs i).objs = [] then (w, .ok false)
  else if checkName ty nkey = false then (w, .err)
  else if (w.dbs i).contains ty okey = false then (w, .err)
  else match w.topOf i with
    | none => (w, .err)
    | some top =>
      if overwrite = false ∧ (w.dbs top).contains ty nkey = true then (w, .err)
      else match (w.dbs top).getObjPtr ty okey with
        | none => (w, .err)
        | some a =>
          let kids := w.childrenOf i
          let w1 := w.modDb top (fun d => { d with objs := (d.objs.erase okey).insert nkey a })
          (w1.modAll kids (fun d =>
            if d.contains ty okey then { d with objs := (d.objs.erase okey).insert nkey a } else d), .ok true)

/-- `remove` (api/objs/kdb.h:889-910). -/
def remove (ty : ObjType) (w : World T) (i : Nat) (name : Name) : World T × Res Bool :=
  let key := toKey ty name
  match w.topOf i with
  | none => (w, .err)
  | some top =>
    if (w.dbs i).contains ty key ∧ (w.dbs top).contains ty key then
      let kids := w.childrenOf i
      let w1 := w.modDb top (fun d => { d with objs := d.objs.erase key })
      (w1.modAll kids (fun d => { d with objs := d.objs.erase key }), .ok true)
    else (w, .ok false)

/-- `clear` (api/objs/kdb.h:613-661). A top-level database clears its subsets and makes them standalone; a subset
    unregisters itself from its parent (and keeps its kind and its parent). The children of a child are empty. -/
def clear (w : World T) (i : Nat) : World T × Res Bool :=
  match (w.dbs i).kind with
  | .subset =>
    let w1 := match (w.dbs i).parent with
      | some p => w.modDb p (fun d => { d with children := d.children.filter (· ≠ i) })
      | none => w
    (w1.modDb i (fun d => { d with objs := [] }), .ok true)
  | _ =>
    let kids := (w.dbs i).children
    let w1 := w.modAll kids (fun d => { d with kind := .standalone, objs := [] })
    (w1.modDb i (fun d => { d with children := [], objs := [] }), .ok true)

/-- Writing through the pointer returned by `get_obj_ptr`. -/
def modify (ty : ObjType) (w : World T) (i : Nat) (name : Name) (v : T) : World T × Res Bool :=
  match (w.dbs i).getObjPtr ty name with
  | none => (w, .err)
  | some a => ({ w with heap := fun b => if b = a then v else w.heap b }, .ok true)

/-- `D::Create(is_global)`: a new empty database. -/
def create (w : World T) (kind : DbKind) : World T × Nat :=
  ({ w with dbs := fun j => if j = w.nDbs then Db.empty kind else w.dbs j, nDbs := w.nDbs + 1 }, w.nDbs)

/-- `copy_obj_from` (api/objs/kdb.h:925-930). -/
def copyObjFrom (ty : ObjType) (w : World T) (i j : Nat) (src dst : Name) : World T × Res Bool :=
  match (w.dbs j).getObjPtr ty src with
  | none => (w, .err)
  | some a => w.setObjPtr ty i dst a

/-- `filter_names` (api/objs/kdb.h:308-365). `none` is the pattern `"*"`: all names, as they are. Otherwise the names
    `expand` produced (none for the empty pattern): the keys found; an error when names were asked for and none exists. -/
def filterNames (ty : ObjType) (d : Db) (names : Option (List Name)) : Option (List Name) :=
  match names with
  | none => some d.objs.keys
  | some names =>
    let ks := (names.map (d.getKey ty)).filter (· ≠ [])
    if names ≠ [] ∧ ks = [] then none else some ks

/-- `shallow_copy` (api/objs/kdb.h:437-461): the objects of the named keys, or failure if one is absent. -/
def shallowObjs (ty : ObjType) (src : Db) : List Name → SMap Nat → Option (SMap Nat)
  | [], m => some m
  | k :: ks, m =>
    if src.contains ty k then
      match src.getObjPtr ty k with
      | none => none
      | some a => shallowObjs ty src ks (m.insert k a)
    else none

/-- `deep_copy` (api/objs/kdb.h:463-482) from database `j` into `i`; stops at the first failure. -/
def deepCopy (ty : ObjType) (w : World T) (i j : Nat) : List Name → World T × Res Bool
  | [] => (w, .ok true)
  | k :: ks =>
    if (w.dbs j).contains ty k then
      match w.copyObjFrom ty i j k k with
      | (w1, .ok _) => deepCopy ty w1 i j ks
      | (w1, r) => (w1, r)
    else (w, .err)

/-- `get_subset` (api/objs/kdb.h:664-712). The result, when it succeeds, is the number of the new database
    (which is the old `nDbs`). A subset that could not be built is never visible: the world is left as it was
    (in C++ it is destroyed). -/
def getSubset (ty : ObjType) (w : World T) (i : Nat) (names : Option (List Name)) (copy : Bool) : World T × Res Bool :=
  match filterNames ty (w.dbs i) names with
  | none => (w, .err)
  | some ks =>
    match w.topOf i with
    | none => (w, .err)
    | some top =>
      if copy then
        let (w1, n) := w.create .standalone
        match w1.deepCopy ty n top ks with
        | (w2, .ok b) => (w2, .ok b)
        | (_, r) => (w, r)
      else
        match shallowObjs ty (w.dbs top) ks [] with
        | none => (w, .err)
        | some m =>
          let (w1, n) := w.create .subset
          let w2 := w1.modDb n (fun d => { d with objs := m, parent := some top })
          (w2.modDb top (fun d => { d with children := n :: d.children }), .ok true)

/-- `duplicate` (api/objs/kdb.h:932-962). -/
def duplicate (ty : ObjType) (w : World T) (i j : Nat) (old new : Name) : World T × Res Bool :=
  if i = j ∧ old = new then (w, .ok false)
  else if (w.dbs j).contains ty old = false then (w, .ok false)
  else
    let okey := toKey ty old
    let nkey := toKey ty new
    let w1 := if (w.dbs i).contains ty new then (w.remove ty i nkey).1 else w
    if (w1.dbs j).contains ty old = false then (w1, .ok false)
    else w1.copyObjFrom ty i j okey nkey

/-- Body of the loop of `merge` (api/objs/kdb.h:1045-1062), over the names read beforehand. -/
def mergeLoop (ty : ObjType) (w : World T) (i j : Nat) (overwrite : Bool) : List Name → World T × Res Bool
  | [] => (w, .ok true)
  | k :: ks =>
    if (w.dbs j).contains ty k then
      if (w.dbs i).contains ty k = true ∧ overwrite = false then mergeLoop ty w i j overwrite ks
      else
        let w1 := if (w.dbs i).contains ty k then (w.remove ty i k).1 else w
        match w1.copyObjFrom ty i j k k with
        | (w2, .ok _) => mergeLoop ty w2 i j overwrite ks
        | (w2, r) => (w2, r)
    else mergeLoop ty w i j overwrite ks

/-- `merge` (api/objs/kdb.h:1039-1066). -/
def merge (ty : ObjType) (w : World T) (i j : Nat) (overwrite clearSource : Bool) : World T × Res Bool :=
  if (w.dbs j).objs = [] then (w, .ok true)
  else match w.mergeLoop ty i j overwrite (w.dbs j).objs.keys with
    | (w1, .ok _) => if clearSource then w1.clear j else (w1, .ok true)
    | (w1, r) => (w1, r)

/-- The operations a user can call on the databases of one type. -/
inductive Op (T : Type) where
  | create (kind : Bool)
  | set (i : Nat) (name : Name) (v : T)
  | add (i : Nat) (name : Name) (v : T)
  | update (i : Nat) (name : Name) (v : T)
  | remove (i : Nat) (name : Name)
  | rename (i : Nat) (old new : Name) (overwrite : Bool)
  | clear (i : Nat)
  | modify (i : Nat) (name : Name) (v : T)
  | copyObj (i j : Nat) (src dst : Name)
  | subset (i : Nat) (names : Option (List Name)) (copy : Bool)
  | duplicate (i j : Nat) (old new : Name)
  | merge (i j : Nat) (overwrite clearSource : Bool)

/-- The databases an operation is called with must exist. -/
def Op.valid (w : World T) : Op T → Bool
  | .create _ => true
  | .set i _ _ | .add i _ _ | .update i _ _ | .remove i _ | .rename i _ _ _ | .clear i
  | .modify i _ _ | .subset i _ _ => i < w.nDbs
  | .copyObj i j _ _ | .duplicate i j _ _ | .merge i j _ _ => i < w.nDbs && j < w.nDbs

/-- One call. A call on a database that does not exist is not possible in C++ and leaves the world unchanged. -/
def step (ty : ObjType) (w : World T) (op : Op T) : World T × Res Bool :=
  if op.valid w = false then (w, .err) else
  match op with
  | .create g => ((w.create (if g then .global else .standalone)).1, .ok true)
  | .set i n v => w.set ty i n v
  | .add i n v => w.add ty i n v
  | .update i n v => w.update ty i n v
  | .remove i n => w.remove ty i n
  | .rename i o n ow => w.rename ty i o n ow
  | .clear i => w.clear i
  | .modify i n v => w.modify ty i n v
  | .copyObj i j s d => w.copyObjFrom ty i j s d
  | .subset i ns c => w.getSubset ty i ns c
  | .duplicate i j o n => w.duplicate ty i j o n
  | .merge i j o c => w.merge ty i j o c

/-- The world after a history of calls. -/
def run (ty : ObjType) (w : World T) (ops : List (Op T)) : World T :=
  ops.foldl (fun w op => (w.step ty op).1) w

/-- What a user sees under a name (`get`). -/
def look (ty : ObjType) (w : World T) (i : Nat) (name : Name) : Option T :=
  ((w.dbs i).getObjPtr ty name).map w.heap

end World
end Iode
