import Verif.Model.LecExec

/-!
# What a LEC formula means

Expression trees, the grammar with the documented priorities, and the value of a tree.  Nothing here
refers to the stacks of the compiler or of the executor.
-/
namespace Iode.Lec

/-- Expression trees.  `var x l p` is the variable `x` with lag `l`, or at the fixed period `p`. -/
inductive Expr where
  | cst (k : Cst)
  | val (v : VFn)
  | var (x : Name) (lag : Int) (per : Option Period)
  | coef (x : Name)
  | par (e : Expr)
  | bin (o : Op) (a b : Expr)
  | app (f : Fun) (args : List Expr)

namespace Expr

mutual
/-- Change the dating of every variable of an expression. -/
def mapVar (g : Int → Option Period → Int × Option Period) : Expr → Expr
  | cst k => cst k
  | val v => val v
  | var x l p => var x (g l p).1 (g l p).2
  | coef x => coef x
  | par e => par (mapVar g e)
  | bin o a b => bin o (mapVar g a) (mapVar g b)
  | app f args => app f (mapVarL g args)
/-- The same for a list of expressions. -/
def mapVarL (g : Int → Option Period → Int × Option Period) : List Expr → List Expr
  | [] => []
  | e :: es => mapVar g e :: mapVarL g es
end

/-- A lag moves the variables that have no fixed period. -/
def lagV (k : Int) (l : Int) : Option Period → Int × Option Period
  | none => (l + k, none)
  | some p => (l, some p)

/-- A date fixes the variables that have none yet. -/
def dateV (d : Period) (l : Int) : Option Period → Int × Option Period
  | none => (l, some d)
  | some p => (l, some p)

/-- `e[k]`: the lag written behind an expression. -/
def shift (k : Int) (e : Expr) : Expr := e.mapVar (lagV k)

/-- `e[2000Y1]`: the date written behind an expression. -/
def dated (d : Period) (e : Expr) : Expr := e.mapVar (dateV d)

/-- Induction over expressions. -/
theorem ind {P : Expr → Prop} (hc : ∀ k, P (cst k)) (hv : ∀ v, P (val v))
    (hx : ∀ x l p, P (var x l p)) (hs : ∀ x, P (coef x)) (hp : ∀ e, P e → P (par e))
    (hb : ∀ o a b, P a → P b → P (bin o a b))
    (ha : ∀ f args, (∀ a ∈ args, P a) → P (app f args)) : ∀ e, P e
  | cst k => hc k
  | val v => hv v
  | var x l p => hx x l p
  | coef x => hs x
  | par e => hp e (ind hc hv hx hs hp hb ha e)
  | bin o a b => hb o a b (ind hc hv hx hs hp hb ha a) (ind hc hv hx hs hp hb ha b)
  | app f args => ha f args (fun a _ => ind hc hv hx hs hp hb ha a)

end Expr

/-! ## Grammar -/

/-- What a piece of text is: an expression of a priority level (2 for `or` up to 7 for `^`, 8 for a
prefix function or sign and its operand, 9 for an operand; 0 for any expression), the list of arguments
of a call up to the last one, without the closing parenthesis, or a call with several arguments. -/
inductive Kind where
  | lev (n : Nat)
  | args
  | call

/-- The grammar.  Operators associate to the left; functions and signs bind tighter than every operator;
a bracket belongs to the operand in front of it.  The last rule (a bracket behind a call with several
arguments belongs to the last argument) is only there if `ext` is set. -/
inductive G (ext : Bool) : Kind → List Tok → List Expr → Prop where
  | cst (k : Cst) : G ext (.lev 9) [.cst k] [.cst k]
  | val (v : VFn) : G ext (.lev 9) [.val v] [.val v]
  | var (x : Name) : G ext (.lev 9) [.var x] [.var x 0 none]
  | coef (x : Name) : G ext (.lev 9) [.coef x] [.coef x]
  | par {ts e} : G ext (.lev 0) ts [e] → G ext (.lev 9) (.openp :: (ts ++ [.closep])) [.par e]
  | lag {ts e} (k : Int) : G ext (.lev 9) ts [e] → G ext (.lev 9) (ts ++ [.lag k]) [e.shift k]
  | date {ts e} (p : Period) : G ext (.lev 9) ts [e] → G ext (.lev 9) (ts ++ [.date p]) [e.dated p]
  | up {n ts es} : G ext (.lev (n + 1)) ts es → G ext (.lev n) ts es
  | minus {ts e} : G ext (.lev 8) ts [e] → G ext (.lev 8) (.op .minus :: ts) [.app (.fn .uminus) [e]]
  | plus {ts e} : G ext (.lev 8) ts [e] → G ext (.lev 8) (.op .plus :: ts) [.app (.fn .uplus) [e]]
  | un {ts e} (f : Fun) : f.arityOk 1 = true → G ext (.lev 8) ts [e] →
      G ext (.lev 8) (.fun f :: ts) [.app f [e]]
  | bin {ts us a b} (o : Op) : G ext (.lev o.prior) ts [a] → G ext (.lev (o.prior + 1)) us [b] →
      G ext (.lev o.prior) (ts ++ .op o :: us) [.bin o a b]
  | arg1 {ts e} : G ext (.lev 0) ts [e] → G ext .args (.openp :: ts) [.par e]
  | argN {ts us es e} : G ext .args ts es → G ext (.lev 0) us [e] →
      G ext .args (ts ++ .comma :: us) (es ++ [.par e])
  | call {ts es} (f : Fun) : 2 ≤ es.length → f.arityOk es.length = true → G ext .args ts es →
      G ext .call (.fun f :: (ts ++ [.closep])) [.app f es]
  | ofCall {ts es} : G ext .call ts es → G ext (.lev 8) ts es
  | callLag {ts f es e} (k : Int) : ext = true → G ext .call ts [.app f (es ++ [e])] →
      G ext .call (ts ++ [.lag k]) [.app f (es ++ [e.shift k])]
  | callDate {ts f es e} (p : Period) : ext = true → G ext .call ts [.app f (es ++ [e])] →
      G ext .call (ts ++ [.date p]) [.app f (es ++ [e.dated p])]

/-- `ts` is a formula that reads as the tree `e`. -/
def Reads (ts : List Tok) (e : Expr) : Prop := G false (.lev 0) ts [e]

/-- The same, with a bracket behind a call of several arguments read as the compiler does. -/
def ReadsExt (ts : List Tok) (e : Expr) : Prop := G true (.lev 0) ts [e]

/-! ## Values -/

variable {F : Type}

/-- Value of an ordinary function: NA if an argument is NA and the function is not one of those that
accept NA; `none` if the C++ function is undefined there. -/
def fnVal (A : Arith F) (f : Fn) (vs : List F) : Option F :=
  if f = .lcount then some (A.ofInt vs.length)
  else if f.acceptsNa || vs.all A.isNum then
    match A.fnRev f vs.reverse with
    | .ok v => some v
    | _ => none
  else some A.na

/-- Values needed by a fold that stops at the first NA: everything up to there must be defined. -/
def foldVals {S : Type} (A : Arith F) (f : S → F → S) : List (Option F) → S → Option (Option S)
  | [], acc => some (some acc)
  | none :: _, _ => none
  | some v :: vs, acc => if A.isNum v then foldVals A f vs (f acc v) else some none

/-- Value of a function with a lag: `l`, `d`, `r`, `dln`, `grt`, `ma`. -/
def lagVal (A : Arith F) (f : TFn) (body : Int → Option F) (t lag : Int) : Option F :=
  match f with
  | .lag => body (t - lag)
  | .diff => two fun a b => A.sub a b
  | .rapp => two fun a b => A.divide a b
  | .dln => two fun a b => A.logn (A.divide a b)
  | .grt => (two fun a b => A.divide a b).map A.growth
  | .mavg =>
    let l := if lag < 1 then 1 else lag
    (foldVals A A.add ((downFrom t l).map body) (A.ofInt 0)).map fun o =>
      match o with
      | some s => A.div s (A.ofInt l)
      | none => A.na
  | _ => none
where
  /-- both points are needed, NA if one of them is -/
  two (k : F → F → F) : Option F :=
    match body t with
    | none => none
    | some v1 =>
      if A.isNum v1 then
        match body (t - lag) with
        | none => none
        | some v2 => some (if A.isNum v2 then k v1 v2 else A.na)
      else some A.na

/-- Value of a function over a range of periods. -/
def rangeVal (A : Arith F) (f : TFn) (body : Int → Option F) (a b : Int) : Option F :=
  match f with
  | .sum => fold A.add (A.ofInt 0) id
  | .prod => fold A.mul (A.ofInt 1) id
  | .mean => fold A.add (A.ofInt 0) fun s => if A.isNum s then A.div s (A.ofInt (1 + b - a)) else A.na
  | .stderr =>
    (foldVals A (fun (s : F × F) x => (A.add s.1 x, A.add s.2 (A.mul x x))) ((upTo a b).map body)
      (A.ofInt 0, A.ofInt 0)).map fun o =>
        match o with
        | some s => A.stderrEnd (1 + b - a) s.1 s.2
        | none => A.na
  | .vmax => best fun m x => A.lt m x
  | .vmin => best fun m x => A.lt x m
  | .lastobs => last ((upTo a b).reverse.map body)
  | _ => none
where
  /-- accumulate over the range -/
  fold (g : F → F → F) (z : F) (k : F → F) : Option F :=
    (foldVals A g ((upTo a b).map body) z).map fun o =>
      match o with
      | some s => k s
      | none => A.na
  /-- best value, starting with the first -/
  best (better : F → F → Bool) : Option F :=
    match body a with
    | none => none
    | some v =>
      if A.isNum v then
        (foldVals A (fun m x => if better m x then x else m) ((upTo (a + 1) b).map body) v).map fun o =>
          match o with
          | some s => s
          | none => A.na
      else some A.na
  /-- first number of a list -/
  last : List (Option F) → Option F
    | [] => some A.na
    | none :: _ => none
    | some v :: vs => if A.isNum v then some v else last vs

/-- Value of a time function: `body` is the last argument as a function of time, `opts` the values of the
arguments in front of it.  They must be numbers. -/
def tfnVal (A : Arith F) (f : TFn) (opts : List F) (body : Int → Option F) (t : Int) : Option F :=
  if opts.all A.isNum then
    if f.lagged then
      match opts with
      | [] => lagVal A f body t 1
      | [x] => (A.intlag x).bind fun l => lagVal A f body t l
      | _ => none
    else
      match opts with
      | [] => rangeVal A f body 0 t
      | [x] => (A.intlag x).bind fun a => rangeVal A f body (min a t) (max a t)
      | [x, y] => (A.intlag x).bind fun a => (A.intlag y).bind fun b =>
          rangeVal A f body (min a b) (max a b)
      | _ => none
  else none

/-- All the values or none. -/
def allSome : List (Option F) → Option (List F)
  | [] => some []
  | some v :: os => (allSome os).map (v :: ·)
  | none :: _ => none

mutual
/-- Value of an expression at position `t` of the sample; `none` where it has none. -/
def eval (A : Arith F) (E : Env F) : Expr → Int → Option F
  | .cst (.long n), _ => some (A.ofInt n)
  | .cst (.real a b), _ => some (A.ofReal a b)
  | .cst (.period p), _ => some (A.ofInt (E.posOf p))
  | .val v, t => some (valVal A E t v)
  | .var x l none, t => some (E.at A x (t + l))
  | .var x l (some p), _ => some (E.at A x (E.posOf p + l))
  | .coef x, _ => some (if A.isNum (E.coef x) then E.coef x else A.na)
  | .par e, t => eval A E e t
  | .bin o a b, t =>
    match eval A E a t, eval A E b t with
    | some x, some y => some (if A.isNum x && A.isNum y then A.bin o x y else A.na)
    | _, _ => none
  | .app (.fn f) args, t => (allSome ((evalFs A E args).map (· t))).bind (fnVal A f)
  | .app (.tfn f) args, t =>
    match (evalFs A E args).reverse with
    | [] => none
    | body :: opts => (allSome (opts.reverse.map (· t))).bind fun vs => tfnVal A f vs body t
  | .app (.mtfn _) _, _ => none
/-- The values of the arguments as functions of time. -/
def evalFs (A : Arith F) (E : Env F) : List Expr → List (Int → Option F)
  | [] => []
  | e :: es => eval A E e :: evalFs A E es
end

theorem evalFs_eq (A : Arith F) (E : Env F) : ∀ es, evalFs A E es = es.map (eval A E)
  | [] => by simp [evalFs]
  | e :: es => by simp [evalFs, evalFs_eq A E es]

mutual
/-- The periods written in an expression. -/
def periodsOf : Expr → List Period
  | .cst (.period p) => [p]
  | .var _ _ (some p) => [p]
  | .par e => periodsOf e
  | .bin _ a b => periodsOf a ++ periodsOf b
  | .app _ args => periodsOfL args
  | _ => []
/-- The same for a list of expressions. -/
def periodsOfL : List Expr → List Period
  | [] => []
  | e :: es => periodsOf e ++ periodsOfL es
end

end Iode.Lec
