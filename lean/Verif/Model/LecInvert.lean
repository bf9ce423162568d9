import Verif.Model.LecExec

/-!
# Solving an equation for one variable

api/lec/l_eqs.cpp: an equation `lhs := rhs` is compiled into two lists of elements (postfix order); if the variable to
solve for occurs once at the current period, the operators around it are undone one after the other.

Simplifications: the text is already cut at `:=`; names stay in the elements (see `Verif/Model/Lec.lean`).
-/
namespace Iode.Lec

variable {F : Type}

/-- The test in `L_count_endo`, l_eqs.cpp 70-81: neither lagged nor dated. -/
def isEndo (x : Name) : Atom → Bool
  | .var y l none => y = x && l = 0
  | _ => false

/-- `L_count_endo`, l_eqs.cpp 64-86. -/
def countEndo (x : Name) (as : List Atom) : Nat := as.countP (isEndo x)

/-- Result of `L_split_expr`: the last element with what is in front of it cut in two; or the end of the process (the
last element is a variable). -/
inductive Split where
  | done
  | parts (a : Atom) (left right : List Atom)
  deriving Repr, DecidableEq

/-- The second half of `L_split_expr`, l_eqs.cpp 157-190: `w` is cut in front of its last sub-expression. -/
def cutLast (a : Atom) (w : List Atom) : Res Split :=
  (subLast w).bind fun k => .ok (.parts a (w.take (w.length - k)) (w.drop (w.length - k)))

/-- `L_split_expr`, l_eqs.cpp 121-209.  A closing parenthesis at the end: the first and the last element are dropped
(`pop_back()` of an empty vector is undefined). -/
def splitExpr (v : List Atom) : Res Split :=
  match v.getLast? with
  | none => .err
  | some .closep => if 2 ≤ v.length then splitExpr v.tail.dropLast else .ub
  | some (.var _ _ _) => .ok .done
  | some (.op o) => cutLast (.op o) v.dropLast
  | some (.fun f n) => cutLast (.fun f n) v.dropLast
  | some (.val w) => cutLast (.val w) v.dropLast
  | some _ => .err
  termination_by v.length
  decreasing_by simp; omega

/-- The functions undone by another function of one argument, l_eqs.cpp 497-527. -/
def undoFn : Fn → Option (List Atom)
  | .ln => some [.fun (.fn .expn) 1]
  | .expn => some [.fun (.fn .ln) 1]
  | .uplus => some []
  | .uminus => some [.fun (.fn .uminus) 1]
  | .cos => some [.fun (.fn .acos) 1]
  | .acos => some [.fun (.fn .cos) 1]
  | .sin => some [.fun (.fn .asin) 1]
  | .asin => some [.fun (.fn .sin) 1]
  | .tan => some [.fun (.fn .atan) 1]
  | .atan => some [.fun (.fn .tan) 1]
  | _ => none

/-- `l(n, w)` or `l(w)`, l_eqs.cpp 552-582: the arguments of the time function again, as a lag. -/
def lagAgain (n : Nat) (o w : List Atom) : List Atom :=
  (if n = 2 then o else []) ++ w ++ [.fun (.tfn .lag) n]

/-- Undo the operator or function `a`: `endoLeft` says in which part the variable is, `o` is the other part, `w` the part
with the variable, `r` the solution so far (`L_EXPR`).  l_eqs.cpp 456-592.  For `sqrt` and `log` the code appends the
operator `^` as if it were a function, which throws (`L_append_fn`, 322-354). -/
def undo (a : Atom) (endoLeft : Bool) (o w r : List Atom) : Res (List Atom) :=
  match a with
  | .op .plus => .ok (r ++ o ++ [.op .minus])
  | .op .times => .ok (r ++ o ++ [.op .divide])
  | .op .minus => if endoLeft then .ok (r ++ o ++ [.op .plus]) else .ok (o ++ r ++ [.op .minus])
  | .op .divide => if endoLeft then .ok (r ++ o ++ [.op .times]) else .ok (o ++ r ++ [.op .divide])
  | .op .exp =>
    if endoLeft then .ok (r ++ [.fun (.fn .ln) 1] ++ o ++ [.op .divide] ++ [.fun (.fn .expn) 1])
    else .ok (o ++ r ++ [.fun (.fn .log) 2])
  | .fun (.fn f) _ =>
    match undoFn f with
    | some u => .ok (r ++ u)
    | none => .err
  | .fun (.tfn .diff) n => .ok (r ++ lagAgain n o w ++ [.op .plus])
  | .fun (.tfn .dln) n =>
    .ok (r ++ lagAgain n o w ++ [.fun (.fn .ln) 1] ++ [.op .plus] ++ [.fun (.fn .expn) 1])
  | .fun (.tfn .grt) n =>
    .ok (r ++ [.cst (.long 100), .op .divide, .cst (.long 1), .op .plus] ++ lagAgain n o w ++ [.op .times])
  | .fun (.tfn .rapp) n => .ok (r ++ lagAgain n o w ++ [.op .times])
  | _ => .err

/-- The loop of `L_invert`, l_eqs.cpp 455-592.  `v` is the part with the variable; it gets shorter at each turn, the
`fuel` is its length. -/
def invLoop (x : Name) : Nat → List Atom → List Atom → Res (List Atom)
  | 0, _, _ => .err
  | fuel + 1, v, r =>
    (splitExpr v).bind fun s =>
      match s with
      | .done => .ok r
      | .parts a left right =>
        if countEndo x left > 0 then (undo a true right left r).bind fun r => invLoop x fuel left r
        else (undo a false left right r).bind fun r => invLoop x fuel right r

/-- `generate_lec_expression_alloc`, l_eqs.cpp 225-238, and the `pop_back()` that follows (262, 269): of an empty vector
if the text is malformed. -/
def compileSide (ts : List Tok) : Res (List Atom) :=
  match compile [] ts with
  | .ok as => .ok as
  | .err _ => .ub
  | .ub => .ub

/-- `L_invert`, l_eqs.cpp 407-596: the elements of the solved form and `duplicated_endo`. -/
def invert (lhs rhs : List Tok) (x : Name) : Res (Bool × List Atom) :=
  (compileSide lhs).bind fun l => (compileSide rhs).bind fun r =>
    if countEndo x l + countEndo x r = 0 then .err
    else if 2 ≤ countEndo x l + countEndo x r then .ok (true, l ++ r ++ [.op .minus])
    else if countEndo x l = 0 then (invLoop x (r.length + 1) r l).bind fun as => .ok (false, as)
    else (invLoop x (l.length + 1) l r).bind fun as => .ok (false, as)

/-- `CLEC(eq, endo)`, k_lec.cpp 305-320, linked and executed at `t`: the flag and the value. -/
def solveText (A : Arith F) (E : Env F) (lhs rhs : List RTok) (x : Name) (t : Int) : Res (Bool × F) :=
  (invert (group lhs) (group rhs) x).bind fun p =>
    (build p.2).bind fun code => (execSub A E code t).bind fun v => .ok (p.1, v)

end Iode.Lec
