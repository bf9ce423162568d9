import Verif.Model.LecLink
import Verif.Model.Vars

/-!
# Execution of identities (api/k_exec.cpp, api/report/commands/b_idt.cpp)

Simplifications
* a file of variables is the database it contains, or nothing if it cannot be loaded or is empty (files: C17-C19, C22);
* the identities have formulas which were compiled when they were defined; a formula is its text and what the stack of
  operators held when it was compiled;
* databases are maps from keys to values: no sharing with subsets (C13), the trace of the execution is left out;
* the sample of the workspace of variables is defined; samples have at least one period;
* exceptions and the codes -1, -2, -3 are `.err`.
-/
namespace Iode.Idt

open Iode.Lec

variable {F : Type}

/-- An identity: the text of its formula, the stack of operators when it was compiled. -/
structure Idt where
  ops : List Entry
  text : List RTok

/-- A database of identities. -/
abbrev Idts := SMap Idt

/-- `clec->objs`: the names of a formula in the order of the text, l_compile.cpp 17-36. -/
def Idt.objs (f : Idt) : List Name := lnames (group f.text)

/-! ## Order of execution -/

/-- The loop over the names of one identity, k_exec.cpp 235-253: the identity has to wait if it uses another one that is
not placed yet. -/
def waits (dbi : Idts) (placed : List Nat) (x : Name) (f : Idt) : Bool :=
  f.objs.any fun n =>
    !isCoef n && decide (n ≠ x) &&
      match indexOf .identities dbi n with
      | some p => decide (p ∉ placed)
      | none => false

/-- One pass over the identities, k_exec.cpp 227-264. An identity that is placed is skipped by `continue` *without* `i++`
(230-231): the position stays behind the iterator. -/
def pass (dbi : Idts) : List (Name × Idt) → Nat → List Nat → List Nat
  | [], _, placed => placed
  | (x, f) :: es, i, placed =>
    if i ∈ placed then pass dbi es i placed
    else if waits dbi placed x f then pass dbi es (i + 1) placed
    else pass dbi es (i + 1) (placed ++ [i])

/-- The passes, k_exec.cpp 223-283: an error if one places nothing. The `fuel` is never exhausted (see
`C38_passes_suffice`). -/
def passes (dbi : Idts) : Nat → List Nat → Option (List Nat)
  | 0, _ => none
  | fuel + 1, placed =>
    if dbi.length ≤ placed.length then some placed
    else
      let placed' := pass dbi dbi 0 placed
      if placed'.length = placed.length then none else passes dbi fuel placed'

/-- `KI_reorder`, k_exec.cpp 213-286: the positions in the order of execution. -/
def reorder (dbi : Idts) : Option (List Nat) := passes dbi (dbi.length + 1) []

/-! ## Variables and scalars needed -/

/-- A database of variables. -/
structure VarDb (F : Type) where
  smpl : Option Sample
  vars : SMap (List F)
  deriving DecidableEq

/-- The names of `KI_series_list`, k_exec.cpp 116-128. -/
def seriesNames (dbi : Idts) : List Name := dbi.flatMap fun e => e.1 :: e.2.objs.filter (!isCoef ·)

/-- `KI_series_list`, k_exec.cpp 131-134, then `set_sample`, k_exec.cpp 829-832: each series has missing values over the
sample; `set` throws for a name that is too long. -/
def seriesFrom (na : F) (nb : Int) : List Name → SMap (List F) → Res (SMap (List F))
  | [], m => .ok m
  | n :: ns, m =>
    if checkName .variables (toKey .variables n) = false then .err
    else seriesFrom na nb ns (m.insert (toKey .variables n) (List.replicate nb.toNat na))

/-- `KI_scalar_list`, k_exec.cpp 146-164: new scalars, with the value `new_scl` of the default constructor. -/
def scalarsFrom (dflt : F) (dbi : Idts) : SMap F :=
  (dbi.flatMap fun e => e.2.objs.filter (isCoef ·)).foldl (fun m n => m.insert (toKey .scalars n) dflt) []

/-- What is known while reading: the series, the names already read (`idt_exec_loaded_vars`). -/
structure Loading (F : Type) where
  vars : SMap (List F)
  loaded : List Name

/-- The loop of `KI_read_vars_db` over the names, k_exec.cpp 354-397: a new series with the values of the common periods.
`d1`, `d2` are `start` and `start_tmp`. -/
def readNames (na : F) (nb d1 d2 n : Int) (src : SMap (List F)) : List Name → Loading F → Res (Loading F)
  | [], ld => .ok ld
  | k :: ks, ld =>
    match src.find k with
    | none => readNames na nb d1 d2 n src ks ld
    | some x => (VWorld.resized na x nb d2 d1 n).bind fun y =>
        readNames na nb d1 d2 n src ks ⟨ld.vars.insert k y, k :: ld.loaded⟩

/-- `KI_read_vars_db`, k_exec.cpp 300-405. -/
def readDb (na : F) (vs : Sample) (src : VarDb F) (ld : Loading F) : Res (Loading F) :=
  match ld.vars.keys.filter fun k => decide (k ∉ ld.loaded) && src.vars.has k with
  | [] => .ok ld
  | k :: ks =>
    match src.smpl with
    | none => .err
    | some ts =>
      match VWorld.overlap vs ts with
      | .err => .err
      | .ub => .ub
      | .ok (d1, d2, n) => if n ≤ 0 then .err else readNames na vs.nb d1 d2 n src.vars (k :: ks) ld

/-- The loop of `KI_read_vars` over the sources, k_exec.cpp 499-516: it stops when all series are read; `none` is a file
that cannot be loaded or that is empty. -/
def readSources (na : F) (vs : Sample) : List (Option (VarDb F)) → Loading F → Res (Loading F)
  | [], ld => .ok ld
  | s :: ss, ld =>
    if ld.vars.length ≤ ld.loaded.length then .ok ld
    else match s with
      | none => .err
      | some s => (readDb na vs s ld).bind fun ld => readSources na vs ss ld

/-- `KI_read_vars`, k_exec.cpp 518-563: the series of identities that were not read have missing values, any other one
is an error. -/
def readVars (na : F) (vs : Sample) (dbi : Idts) (srcs : List (Option (VarDb F))) (vars : SMap (List F)) :
    Res (SMap (List F)) :=
  (readSources na vs srcs ⟨vars, []⟩).bind fun ld =>
    if ld.vars.keys.all fun k => decide (k ∈ ld.loaded) || dbi.has (toKey .identities k) then
      .ok (ld.vars.map fun e => (e.1, if e.1 ∈ ld.loaded then e.2 else List.replicate vs.nb.toNat na))
    else .err

/-- The number of scalars read by `KI_read_scls_db`, k_exec.cpp 575-604: a scalar is read if it is in the source and *not*
in the database to fill, which contains them all. -/
def readSclsDb (dbs : SMap F) (src : SMap F) : Nat := (dbs.keys.filter fun k => !dbs.has k && src.has k).length

/-- `KI_read_scls`, k_exec.cpp 663-713; a file is not even loaded as no scalar lacks an object (621-633). -/
def readScls (dbs ws : SMap F) : Res (SMap F) := if readSclsDb dbs ws < dbs.length then .err else .ok dbs

/-! ## Execution -/

/-- `dbv_ptr->get_var_ptr(idt_name)[t] = d`, k_exec.cpp 758. -/
def store (w : Ws F) (x : Name) (t : Int) (d : F) : Res (Ws F) :=
  match w.vars.find (toKey .variables x) with
  | none => .err
  | some vs =>
    if 0 ≤ t ∧ t < vs.length then .ok { w with vars := w.vars.insert (toKey .variables x) (vs.set t.toNat d) } else .ub

/-- The loop over the periods for one identity, k_exec.cpp 755-759. -/
def runPeriods (A : Arith F) (l : Linked) (x : Name) : Nat → Int → Ws F → Res (Ws F)
  | 0, _, w => .ok w
  | n + 1, t, w => (l.exec A w t).bind fun d => (store w x t d).bind fun w => runPeriods A l x n (t + 1) w

/-- `KI_execute`, k_exec.cpp 743-762. All names of the formulas are in the databases, linking can only fail by an exception
(a date with another periodicity). -/
def runAll (A : Arith F) (dbi : Idts) (start : Int) (n : Nat) : List Nat → Ws F → Res (Ws F)
  | [], w => .ok w
  | i :: is, w =>
    match dbi[i]? with
    | none => .err
    | some (x, f) => (linkText w f.ops f.text).bind fun l =>
        (runPeriods A l x n start w).bind fun w => runAll A dbi start n is w

/-- The execution sample must lie in the sample of the workspace, k_exec.cpp 798-818. -/
def checkSample (vs es : Sample) : Res Unit :=
  (vs.stop.difference es.stop).bind fun a => if a < 0 then .err else
    (es.start.difference vs.start).bind fun b => if b < 0 then .err else .ok ()

/-- `KI_exec` up to the extraction, k_exec.cpp 784-870, with the sample `vs` of the workspace: the databases after the
execution. -/
def execAll (A : Arith F) (dflt : F) (dbi : Idts) (vs es : Sample) (srcs : List (Option (VarDb F))) (scls : SMap F) :
    Res (Ws F) :=
  (checkSample vs es).bind fun _ =>
    if dbi = [] then .err
    else match reorder dbi with
      | none => .err
      | some order =>
        (seriesFrom A.na vs.nb (seriesNames dbi) []).bind fun vars =>
        (readVars A.na vs dbi srcs vars).bind fun vars =>
        (readScls (scalarsFrom dflt dbi) scls).bind fun dbs =>
        (es.start.difference vs.start).bind fun d =>
          runAll A dbi (if d < 0 then 0 else d) es.nb.toNat order ⟨vs.start, vs.nb, vars, dbs⟩

/-- `KI_quick_extract`, k_exec.cpp 175-192. -/
def extract (dbi : Idts) (vars : SMap (List F)) : SMap (List F) := vars.filter fun e => dbi.has (toKey .identities e.1)

/-- The loop of `KV_merge(.., replace = 1)`, k_wsvar.cpp 63-92, on values. -/
def mergeLoop (na : F) (nb d1 d2 n : Int) : List (Name × List F) → SMap (List F) → Res (SMap (List F))
  | [], m => .ok m
  | (k, y) :: es, m =>
    if d1 < 0 ∨ d2 < 0 then .ub
    else (VWorld.copyLoop ((m.find k).getD (List.replicate nb.toNat na)) y d1.toNat d2.toNat n.toNat).bind fun z =>
      mergeLoop na nb d1 d2 n es (m.insert k z)

/-- `set_sample`, k_wsvar.cpp 936-1003, on the values of all variables. -/
def resizeAll (na : F) (old new : Sample) (m : SMap (List F)) : Res (SMap (List F)) :=
  if old = new then .ok m
  else match VWorld.overlap old new with
    | .err => .err
    | .ub => .ub
    | .ok (d1, d2, n) => go new.nb d1 d2 n m
where
  /-- The loop over the variables. -/
  go (nb d1 d2 n : Int) : List (Name × List F) → Res (SMap (List F))
    | [] => .ok []
    | (k, x) :: es => (VWorld.resized na x nb d1 d2 n).bind fun y => (go nb d1 d2 n es).bind fun r => .ok ((k, y) :: r)

/-- `KV_merge_del(global_ws_var, kdb_var, 1)`, k_wsvar.cpp 110-140, when the workspace has a sample. -/
def mergeDel (na : F) (ws : VarDb F) (vs es : Sample) (m : SMap (List F)) : Res (VarDb F) :=
  if m = [] then .ok ws
  else if ws.vars = [] then (resizeAll na es vs m).bind fun m => .ok ⟨ws.smpl, m⟩
  else match VWorld.overlap vs es with
    | .err => .err
    | .ub => .ub
    | .ok (d1, d2, n) => (mergeLoop na vs.nb d1 d2 n m ws.vars).bind fun m => .ok ⟨ws.smpl, m⟩

/-- One source of variables: the workspace (`WS`) or a file. -/
inductive Src (F : Type) where
  | ws
  | file (db : Option (VarDb F))

/-- The databases read, in this order; without any file the workspace, k_exec.cpp 490-516. -/
def sources (ws : VarDb F) : List (Src F) → List (Option (VarDb F))
  | [] => [some ws]
  | ss => ss.map fun
    | .ws => some ws
    | .file db => db

/-- `B_IdtExecuteIdts`, b_idt.cpp 92-145, with a workspace that has the sample `vs`. -/
def execute (A : Arith F) (dflt : F) (dbi : Idts) (ws : VarDb F) (vs es : Sample) (srcs : List (Src F)) (scls : SMap F) :
    Res (VarDb F) :=
  (execAll A dflt dbi vs es (sources ws srcs) scls).bind fun w =>
    (resizeAll A.na vs es (extract dbi w.vars)).bind fun m => mergeDel A.na ws vs es m

end Iode.Idt
