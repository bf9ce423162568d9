import Verif.Model.LecExec
import Verif.Model.SMap
import Verif.Model.Names

/-!
# Linking a compiled formula to the workspaces

api/lec/l_link.cpp, l_compile.cpp 17-36, k_lec.cpp 24-95, l_exec.cpp 225-265: a formula keeps the list of its
names; linking looks up the position of every name in the workspace of variables or scalars; execution goes from the
position back to the name and to the object.

Simplifications: the sample is not empty and every series has its length (C11); a period between brackets has a step
other than 0.
-/
namespace Iode.Lec

variable {F : Type}

/-- The workspaces a formula is linked to: start and length of the sample, variables, scalars. -/
structure Ws (F : Type) where
  start : Period
  nb : Int
  vars : SMap (List F)
  scls : SMap F

/-- `L_add_coef_or_var_name`, l_compile.cpp 24-36. -/
def addName (names : List Name) (x : Name) : List Name := if x ∈ names then names else names ++ [x]

/-- The name in a token, l_compile.cpp 66-91. -/
def tokName : Tok → Option Name
  | .var x => some x
  | .coef x => some x
  | _ => none

/-- `L_NAMES` after the tokens `ts`. -/
def lnames (ts : List Tok) : List Name := (ts.filterMap tokName).foldl addName []

/-- `is_coefficient`, api/utils/utils.h 351-358. -/
def isCoef (x : Name) : Bool := checkName .scalars x

/-- `index_of`, api/objs/kdb.h 789-798. -/
def indexOf {V : Type} (ty : ObjType) (m : SMap V) (x : Name) : Option Nat := m.findIdx? fun e => e.1 = toKey ty x

/-- `get_name`, api/objs/kdb.h 803-817, then `get_obj_ptr`: the object at a position. -/
def objAt {V : Type} (ty : ObjType) (m : SMap V) (i : Nat) : Option V :=
  match m[i]? with
  | some e => m.find (toKey ty e.1)
  | none => none

/-- Position of one name, l_link.cpp 29-36. -/
def linkName (w : Ws F) (x : Name) : Option Nat :=
  if isCoef x then indexOf .scalars w.scls x else indexOf .variables w.vars x

/-- `CLEC::link_names`, l_link.cpp 27-47: the positions of all names, an error at the first that is not found. -/
def linkNames (w : Ws F) : List Name → Res (List Nat)
  | [] => .ok []
  | x :: xs =>
    match linkName w x with
    | some i => (linkNames w xs).bind fun is => .ok (i :: is)
    | none => .err

mutual
/-- The periods met by `L_link_sample_expr`, l_link.cpp 78-166; the arguments of functions of several expressions are
skipped. -/
def periodsI : Instr → List Period
  | .cst (.period p) => [p]
  | .var _ _ (some p) => [p]
  | .tfn _ _ body => periodsC body
  | _ => []
/-- The same for code. -/
def periodsC : List Instr → List Period
  | [] => []
  | i :: is => periodsI i ++ periodsC is
end

/-- Does the period have a position in the sample? -/
def hasPos (w : Ws F) (p : Period) : Bool :=
  match p.difference w.start with
  | .ok _ => true
  | _ => false

/-- `CLEC::link_sample`, l_link.cpp 175-181: `Period::difference` throws if the periodicities differ. -/
def linkSample (w : Ws F) (code : List Instr) : Res Unit :=
  if (periodsC code).all (hasPos w) then .ok () else .err

/-- Position of a period in the sample. -/
def perPos (w : Ws F) (p : Period) : Int :=
  match p.difference w.start with
  | .ok d => d
  | _ => 0

/-- The position of a name of the formula, `V_EXEC_POS[pos]`, l_exec.cpp 240-243. -/
def execPos (names : List Name) (poss : List Nat) (x : Name) : Option Nat :=
  match names.findIdx? (· = x) with
  | some k => poss[k]?
  | none => none

/-- What `L_exec` reads: positions `poss` for the names `names`, workspaces `w`, period `t` (k_lec.cpp 24-52). -/
def linkedEnv (A : Arith F) (names : List Name) (poss : List Nat) (w : Ws F) (t : Int) : Env F where
  nb := w.nb
  posOf := perPos w
  var x i :=
    match execPos names poss x with
    | some q =>
      match objAt .variables w.vars q with
      | some vs => vs.getD i.toNat A.na
      | none => A.na
    | none => A.na
  coef x :=
    match execPos names poss x with
    | some q => (objAt .scalars w.scls q).getD A.na
    | none => A.na
  curt := t

/-- A compiled and linked formula. -/
structure Linked where
  code : List Instr
  names : List Name
  poss : List Nat

/-- `CLEC(lec)` and `link`. -/
def linkText (w : Ws F) (ops : List Entry) (rts : List RTok) : Res Linked :=
  match compile ops (group rts) with
  | .ok as => (build as).bind fun code =>
    (linkNames w (lnames (group rts))).bind fun poss =>
      (linkSample w code).bind fun _ => .ok ⟨code, lnames (group rts), poss⟩
  | .err _ => .err
  | .ub => .ub

/-- `L_exec`, l_exec.cpp 241-276. -/
def Linked.exec (A : Arith F) (w : Ws F) (l : Linked) (t : Int) : Res F :=
  execSub A (linkedEnv A l.names l.poss w t) l.code t

/-- Compile, link, execute: `L_cc_link_exec`, l_exec.cpp 306-334, at one position. -/
def runText (A : Arith F) (w : Ws F) (ops : List Entry) (rts : List RTok) (t : Int) : Res F :=
  (linkText w ops rts).bind fun l => l.exec A w t

end Iode.Lec
