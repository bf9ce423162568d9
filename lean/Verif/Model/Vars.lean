import Verif.Lemmas.Kdb
import Verif.Model.Sample

/-!
# Variables workspaces (`KDBVariables`, api/objs/variables.h, api/objs/k_wsvar.cpp)

A world of databases whose objects are lists of values, plus the sample of each database (a `shared_ptr<Sample>`
which is replaced and never written through, hence a value here). `na` is `IODE_NAN`.

Simplifications
* the values are of an arbitrary type, no arithmetic is needed here (see `Verif/Model/VarModes.lean`);
* the operations of `KDBTemplate` are those of `Verif/Model/Kdb.lean`, with the length check that
  `KDBVariables::set_obj_ptr` adds;
* `resize` of a negative count (converted to a huge unsigned number) throws.
-/
namespace Iode

/-- The Variables databases: databases and objects, and the sample of each database (api/objs/variables.h:84). -/
structure VWorld (α : Type) where
  w : World (List α)
  smp : Nat → Option Sample

namespace VWorld
variable {α : Type}

/-- The type tag of all databases here. -/
abbrev ty : ObjType := .variables

/-- No database. -/
def init : VWorld α := ⟨World.init, fun _ => none⟩

/-- `get_nb_periods` (api/objs/k_wsvar.cpp:1005-1011). -/
def nb (v : VWorld α) (i : Nat) : Int :=
  match v.smp i with
  | none => 0
  | some s => s.nb

/-- The test of `check_var_size` (api/objs/variables.h:86-97) and of `set_obj_ptr` (api/objs/k_wsvar.cpp:601-617). -/
def sizeOk (v : VWorld α) (i : Nat) (x : List α) : Bool := decide ((x.length : Int) = v.nb i)

/-- Replace the databases and objects, keep the samples. -/
def withW (v : VWorld α) (r : World (List α) × Res Bool) : VWorld α × Res Bool := ({ v with w := r.1 }, r.2)

/-- `D::Create(is_global)`: no sample yet. -/
def create (v : VWorld α) (g : Bool) : VWorld α × Res Bool :=
  (⟨(v.w.create (if g then .global else .standalone)).1, fun j => if j = v.w.nDbs then none else v.smp j⟩, .ok true)

/-- `set_obj_ptr` (api/objs/k_wsvar.cpp:601-617). -/
def setObjPtr (v : VWorld α) (i : Nat) (name : Name) (a : Nat) : VWorld α × Res Bool :=
  if v.sizeOk i (v.w.heap a) then v.withW (v.w.setObjPtr ty i name a) else (v, .err)

/-- `set` (api/objs/kdb.h:1194-1202) with the `set_obj_ptr` above. -/
def set (v : VWorld α) (i : Nat) (name : Name) (x : List α) : VWorld α × Res Bool :=
  let (w1, a) := v.w.alloc x
  ({ v with w := w1 } : VWorld α).setObjPtr i name a

/-- `add` (api/objs/k_wsvar.cpp:640-649): the sample must be defined, the length must be right. -/
def add (v : VWorld α) (i : Nat) (name : Name) (x : List α) : VWorld α × Res Bool :=
  if v.nb i = 0 then (v, .ok false)
  else if v.sizeOk i x then v.withW (v.w.add ty i name x) else (v, .err)

/-- `update` (api/objs/k_wsvar.cpp:651-655). -/
def update (v : VWorld α) (i : Nat) (name : Name) (x : List α) : VWorld α × Res Bool :=
  if v.sizeOk i x then v.withW (v.w.update ty i name x) else (v, .err)

/-- `remove` (api/objs/kdb.h:889-910). -/
def remove (v : VWorld α) (i : Nat) (name : Name) : VWorld α × Res Bool := v.withW (v.w.remove ty i name)

/-- `rename` (api/objs/kdb.h:840-887). -/
def rename (v : VWorld α) (i : Nat) (old new : Name) (overwrite : Bool) : VWorld α × Res Bool :=
  v.withW (v.w.rename ty i old new overwrite)

/-- `clear` (api/objs/variables.h:155-165). A top-level database clears its subsets, which do the same; a subset
    removes its own sample *and that of all its sister subsets* (`get_children_db` of a subset gives the children
    of its parent). -/
def clear (v : VWorld α) (i : Nat) : VWorld α × Res Bool :=
  (⟨(v.w.clear i).1, fun j => if j = i ∨ j ∈ v.w.childrenOf i then none else v.smp j⟩, (v.w.clear i).2)

/-- `copy_obj_from` (api/objs/kdb.h:925-930). -/
def copyObjFrom (v : VWorld α) (i j : Nat) (src dst : Name) : VWorld α × Res Bool :=
  match (v.w.dbs j).getObjPtr ty src with
  | none => (v, .err)
  | some a => v.setObjPtr i dst a

/-- `deep_copy` (api/objs/kdb.h:463-482). -/
def deepCopy (v : VWorld α) (i j : Nat) : List Name → VWorld α × Res Bool
  | [] => (v, .ok true)
  | k :: ks =>
    if (v.w.dbs j).contains ty k then
      match v.copyObjFrom i j k k with
      | (v1, .ok _) => deepCopy v1 i j ks
      | (v1, r) => (v1, r)
    else (v, .err)

/-- `get_subset` (api/objs/kdb.h:664-712) with `initialize_subset` (api/objs/variables.h:169-184): the subset has the
    sample of the top-level database. -/
def getSubset (v : VWorld α) (i : Nat) (names : Option (List Name)) (copy : Bool) : VWorld α × Res Bool :=
  match World.filterNames ty (v.w.dbs i) names with
  | none => (v, .err)
  | some ks =>
    match v.w.topOf i with
    | none => (v, .err)
    | some top =>
      if copy then
        let v1 : VWorld α := ⟨(v.w.create .standalone).1, fun j => if j = v.w.nDbs then v.smp top else v.smp j⟩
        match v1.deepCopy v.w.nDbs top ks with
        | (v2, .ok b) => (v2, .ok b)
        | (_, r) => (v, r)
      else
        match World.shallowObjs ty (v.w.dbs top) ks [] with
        | none => (v, .err)
        | some m => (⟨v.w.shallowCore top m, fun j => if j = v.w.nDbs then v.smp top else v.smp j⟩, .ok true)

/-- `duplicate` (api/objs/kdb.h:932-962). -/
def duplicate (v : VWorld α) (i j : Nat) (old new : Name) : VWorld α × Res Bool :=
  if i = j ∧ old = new then (v, .ok false)
  else if (v.w.dbs j).contains ty old = false then (v, .ok false)
  else
    let v1 : VWorld α := if (v.w.dbs i).contains ty new then (v.remove i (toKey ty new)).1 else v
    if (v1.w.dbs j).contains ty old = false then (v1, .ok false)
    else v1.copyObjFrom i j (toKey ty old) (toKey ty new)

/-- Body of the loop of `merge` (api/objs/kdb.h:1045-1062). -/
def mergeLoop (v : VWorld α) (i j : Nat) (overwrite : Bool) : List Name → VWorld α × Res Bool
  | [] => (v, .ok true)
  | k :: ks =>
    if (v.w.dbs j).contains ty k then
      if (v.w.dbs i).contains ty k = true ∧ overwrite = false then mergeLoop v i j overwrite ks
      else
        let v1 : VWorld α := if (v.w.dbs i).contains ty k then (v.remove i k).1 else v
        match v1.copyObjFrom i j k k with
        | (v2, .ok _) => mergeLoop v2 i j overwrite ks
        | (v2, r) => (v2, r)
    else mergeLoop v i j overwrite ks

/-- `merge` (api/objs/kdb.h:1039-1066), not overridden: values are copied by position. -/
def merge (v : VWorld α) (i j : Nat) (overwrite clearSource : Bool) : VWorld α × Res Bool :=
  if (v.w.dbs j).objs = [] then (v, .ok true)
  else match v.mergeLoop i j overwrite (v.w.dbs j).objs.keys with
    | (v1, .ok _) => if clearSource then v1.clear j else (v1, .ok true)
    | (v1, r) => (v1, r)

/-- One write `var[t] = x` through an object pointer, as `KV_set` in LEVEL mode (api/objs/k_wsvar.cpp:300-364) and the
    partial `update` (818-856) do: `t` is tested against the sample, not against the vector. -/
def poke (v : VWorld α) (i : Nat) (name : Name) (t : Nat) (x : α) : VWorld α × Res Bool :=
  match (v.w.dbs i).getObjPtr ty name with
  | none => (v, .err)
  | some a =>
    if (t : Int) < v.nb i then
      if t < (v.w.heap a).length then ({ v with w := v.w.writeCore a ((v.w.heap a).set t x) }, .ok true) else (v, .ub)
    else (v, .err)

/-- The copy loops `for(t = 0; t < n; t++) dst[d + t] = src[s + t]` of `set_sample` (api/objs/k_wsvar.cpp:998-999) and
    `KV_merge` (89-91), with vectors that are not the same object. -/
def copyLoop (dst src : List α) (d s : Nat) : Nat → Res (List α)
  | 0 => .ok dst
  | n + 1 =>
    match src[s]? with
    | none => .ub
    | some x => if d < dst.length then copyLoop (dst.set d x) src (d + 1) (s + 1) n else .ub

/-- Bounds of the copy: `intersection` and the two `difference` (api/objs/k_wsvar.cpp:961-970 and 51-57). The offsets
    are not negative (C04), a negative one would be out of bounds. -/
def overlap (old new : Sample) : Res (Int × Int × Int) :=
  match old.intersection new with
  | .err => .err
  | .ub => .ub
  | .ok smpl =>
    if smpl.nb > 0 then
      match smpl.start.difference old.start, smpl.start.difference new.start with
      | .ok d1, .ok d2 => .ok (d1, d2, smpl.nb)
      | .ub, _ => .ub
      | _, .ub => .ub
      | _, _ => .err
    else .ok (0, 0, 0)

/-- New contents of one variable in `set_sample` (api/objs/k_wsvar.cpp:994-999). -/
def resized (na : α) (old : List α) (nb start1 start2 n : Int) : Res (List α) :=
  if nb < 0 then .err
  else if start1 < 0 ∨ start2 < 0 then .ub
  else copyLoop (List.replicate nb.toNat na) old start2.toNat start1.toNat n.toNat

/-- The loop of `set_sample` over the variables (api/objs/k_wsvar.cpp:981-1000). When `resize` throws the variable
    has been emptied. -/
def resizeLoop (na : α) (w : World (List α)) (nb start1 start2 n : Int) : List Nat → World (List α) × Res Bool
  | [] => (w, .ok true)
  | a :: as =>
    match resized na (w.heap a) nb start1 start2 n with
    | .ok x => resizeLoop na (w.writeCore a x) nb start1 start2 n as
    | .err => (w.writeCore a [], .err)
    | .ub => (w, .ub)

/-- Bounds of the copy in `set_sample` (api/objs/k_wsvar.cpp:957-970): nothing to copy without a sample. -/
def copyBounds (o : Option Sample) (s : Sample) : Res (Int × Int × Int) :=
  match o with
  | none => .ok (0, 0, 0)
  | some old => overlap old s

/-- `set_sample(const Sample&)` (api/objs/k_wsvar.cpp:936-1003). -/
def setSample (na : α) (v : VWorld α) (i : Nat) (s : Sample) : VWorld α × Res Bool :=
  if s.nb = 0 then (v, .ok false)
  else if v.smp i = some s then (v, .ok true)
  else if (v.w.dbs i).kind = .subset then (v, .err)
  else
    match copyBounds (v.smp i) s with
    | .err => (v, .err)
    | .ub => (v, .ub)
    | .ok (start1, start2, n) =>
      let r := resizeLoop na v.w s.nb start1 start2 n ((v.w.dbs i).objs.map (·.2))
      (⟨r.1, fun j => if j = i ∨ j ∈ (v.w.dbs i).children then some s else v.smp j⟩, r.2)

/-- One round of the loop of `KV_merge` (api/objs/k_wsvar.cpp:63-92). -/
def kvMergeOne (na : α) (v : VWorld α) (i j : Nat) (start1 start2 n : Int) (replace : Bool) (k : Name) :
    VWorld α × Res Bool :=
  let found := (v.w.dbs i).contains ty k
  if found = true ∧ replace = false then (v, .ok true)
  else
    let r : VWorld α × Res Bool :=
      if found = false then
        (if v.nb i < 0 then (v, .err) else v.set i k (List.replicate (v.nb i).toNat na))
      else (v, .ok true)
    match r with
    | (v1, .ok _) =>
      match (v1.w.dbs i).getObjPtr ty k, (v1.w.dbs j).getObjPtr ty k with
      | some a1, some a2 =>
        if n > 0 ∧ (start1 < 0 ∨ start2 < 0) then (v1, .ub)
        else match copyLoop (v1.w.heap a1) (v1.w.heap a2) start1.toNat start2.toNat n.toNat with
          | .ok x => ({ v1 with w := v1.w.writeCore a1 x }, .ok true)
          | .err => (v1, .err)
          | .ub => (v1, .ub)
      | _, _ => (v1, .err)
    | (v1, r) => (v1, r)

/-- The loop of `KV_merge` over the names of the second database. -/
def kvMergeLoop (na : α) (v : VWorld α) (i j : Nat) (start1 start2 n : Int) (replace : Bool) :
    List Name → VWorld α × Res Bool
  | [] => (v, .ok true)
  | k :: ks =>
    match kvMergeOne na v i j start1 start2 n replace k with
    | (v1, .ok _) => kvMergeLoop na v1 i j start1 start2 n replace ks
    | (v1, r) => (v1, r)

/-- `KV_merge` after the samples are settled (api/objs/k_wsvar.cpp:51-94). A null sample of the second database is
    dereferenced. -/
def kvMergeBody (na : α) (v : VWorld α) (i j : Nat) (replace : Bool) : VWorld α × Res Bool :=
  match v.smp i, v.smp j with
  | some s1, some s2 =>
    match overlap s1 s2 with
    | .err => (v, .err)
    | .ub => (v, .ub)
    | .ok (start1, start2, n) => kvMergeLoop na v i j start1 start2 n replace (v.w.dbs j).objs.keys
  | _, _ => (v, .ub)

/-- `KV_merge` (api/objs/k_wsvar.cpp:25-95); `.err` stands for an exception and for the code -1. -/
def kvMerge (na : α) (v : VWorld α) (i j : Nat) (replace : Bool) : VWorld α × Res Bool :=
  match v.smp i with
  | some _ => v.kvMergeBody na i j replace
  | none =>
    match v.smp j with
    | none => (v, .err)
    | some s2 =>
      match v.setSample na i s2 with
      | (v1, .ok _) =>
        match v1.smp i with
        | none => (v1, .ub)
        | some _ => v1.kvMergeBody na i j replace
      | (v1, r) => (v1, r)

/-- The calls on Variables databases. -/
inductive VOp (α : Type) where
  | create (g : Bool)
  | set (i : Nat) (name : Name) (x : List α)
  | add (i : Nat) (name : Name) (x : List α)
  | update (i : Nat) (name : Name) (x : List α)
  | remove (i : Nat) (name : Name)
  | rename (i : Nat) (old new : Name) (overwrite : Bool)
  | clear (i : Nat)
  | poke (i : Nat) (name : Name) (t : Nat) (x : α)
  | copyObj (i j : Nat) (src dst : Name)
  | subset (i : Nat) (names : Option (List Name)) (copy : Bool)
  | duplicate (i j : Nat) (old new : Name)
  | merge (i j : Nat) (overwrite clearSource : Bool)
  | setSample (i : Nat) (s : Sample)
  | kvMerge (i j : Nat) (replace : Bool)

/-- The databases an operation is called with must exist. -/
def VOp.valid (v : VWorld α) : VOp α → Bool
  | .create _ => true
  | .set i _ _ | .add i _ _ | .update i _ _ | .remove i _ | .rename i _ _ _ | .clear i
  | .poke i _ _ _ | .subset i _ _ | .setSample i _ => i < v.w.nDbs
  | .copyObj i j _ _ | .duplicate i j _ _ | .merge i j _ _ | .kvMerge i j _ => i < v.w.nDbs && j < v.w.nDbs

/-- One call. -/
def step (na : α) (v : VWorld α) (op : VOp α) : VWorld α × Res Bool :=
  if op.valid v = false then (v, .err) else
  match op with
  | .create g => v.create g
  | .set i n x => v.set i n x
  | .add i n x => v.add i n x
  | .update i n x => v.update i n x
  | .remove i n => v.remove i n
  | .rename i o n ow => v.rename i o n ow
  | .clear i => v.clear i
  | .poke i n t x => v.poke i n t x
  | .copyObj i j s d => v.copyObjFrom i j s d
  | .subset i ns c => v.getSubset i ns c
  | .duplicate i j o n => v.duplicate i j o n
  | .merge i j o c => v.merge i j o c
  | .setSample i s => v.setSample na i s
  | .kvMerge i j r => v.kvMerge na i j r

/-- The state after a history of calls. -/
def run (na : α) (v : VWorld α) (ops : List (VOp α)) : VWorld α := ops.foldl (fun v op => (v.step na op).1) v

/-- What a user sees under a name (`get`). -/
def look (v : VWorld α) (i : Nat) (name : Name) : Option (List α) := v.w.look ty i name

end VWorld
end Iode
