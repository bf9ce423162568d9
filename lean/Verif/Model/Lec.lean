import Verif.Model.Res
import Verif.Model.Period
import Verif.Model.Names

/-!
# Compiling LEC formulas

First stage (`generate_lec_expression`, api/lec/l_compile.cpp) and second stage (`CLEC::initialize`,
api/lec/k_lec.cpp) of the compilation of a formula.  The input is the token stream of
api/lec/l_token.cpp (`Model/LecLex.lean`).  Lags are `short` in the code, plain integers
here.  Names are kept in the elements instead of being replaced by positions in `L_NAMES`.
-/
namespace Iode.Lec

/-- Binary operators, api/lec/l_exec_ops.h 20-60 (`L_OP` group). -/
inductive Op where
  | or | and | ge | gt | le | lt | eq | ne | plus | minus | divide | times | exp
  deriving Repr, DecidableEq

/-- `L_PRIOR`, api/lec/l_exec_ops.h: priority of each operator. -/
def Op.prior : Op → Nat
  | .or => 2
  | .and => 3
  | .ge | .gt | .le | .lt | .eq | .ne => 4
  | .plus | .minus => 5
  | .divide | .times => 6
  | .exp => 7

/-- Functions of values, api/lec/l_exec_fns.h (`L_FN` group). -/
inductive Fn where
  | uminus | uplus | log | ln | not | expn | max | min | sin | cos | acos | asin | tan | atan | tanh
  | sinh | cosh | abs | sqrt | int | rad | «if» | lsum | lmean | fnisan | lcount | lprod | sign
  | lstderr | random | floor | ceil | round | urandom | grandom | gamma | div0
  deriving Repr, DecidableEq

/-- `L_MIN_FARGS`, api/lec/l_exec_fns.h. -/
def Fn.minArgs : Fn → Nat
  | .if => 3
  | .lstderr | .grandom | .div0 => 2
  | _ => 1

/-- `L_MAX_FARGS`, api/lec/l_exec_fns.h. -/
def Fn.maxArgs : Fn → Nat
  | .log | .expn | .round | .grandom | .div0 => 2
  | .if => 3
  | .max | .min | .lsum | .lmean | .lcount | .lprod | .lstderr => 255
  | _ => 1

/-- Time functions, api/lec/l_exec_tfn.h (`L_TFN` group). -/
inductive TFn where
  | lag | diff | rapp | dln | grt | mavg | vmax | vmin | sum | prod | mean | stderr | dlag | lastobs
  deriving Repr, DecidableEq

/-- `L_MIN_TARGS`, api/lec/l_exec_tfn.h. -/
def TFn.minArgs : TFn → Nat
  | .dlag => 0
  | _ => 1

/-- `L_MAX_TARGS`, api/lec/l_exec_tfn.h. -/
def TFn.maxArgs : TFn → Nat
  | .lag | .diff | .rapp | .dln | .grt | .mavg => 2
  | .dlag => 0
  | _ => 3

/-- Time functions of several expressions, api/lec/l_exec_mtfn.h (`L_MTFN` group). -/
inductive MFn where
  | corr | covar | covar0 | var | stddev | index | acf | interpol | app | hp | dapp | hpstd
  deriving Repr, DecidableEq

/-- `L_MIN_MTARGS`, api/lec/l_exec_mtfn.h; also the number of expression arguments. -/
def MFn.minArgs : MFn → Nat
  | .var | .stddev | .interpol => 1
  | _ => 2

/-- `L_MAX_MTARGS`, api/lec/l_exec_mtfn.h. -/
def MFn.maxArgs : MFn → Nat
  | .corr | .covar | .covar0 | .index | .acf | .hp | .hpstd => 4
  | .var | .stddev => 3
  | .interpol => 1
  | .app | .dapp => 2

/-- Values without argument, api/lec/l_exec_val.h (`L_VAL` group). -/
inductive VFn where
  | pi | e | t | i | euro
  deriving Repr, DecidableEq

/-- Anything that may be put in front of arguments. -/
inductive Fun where
  | fn (f : Fn)
  | tfn (f : TFn)
  | mtfn (f : MFn)
  deriving Repr, DecidableEq

/-- The check on the number of arguments in `L_save_op`, l_compile.cpp 157-209. -/
def Fun.arityOk (f : Fun) (n : Nat) : Bool :=
  match f with
  | .fn f => f.minArgs ≤ n && n ≤ f.maxArgs
  | .tfn f => f.minArgs ≤ n && n ≤ f.maxArgs
  | .mtfn f => f.minArgs ≤ n && n ≤ f.maxArgs

/-- Constants: integers, decimal numbers and periods. -/
inductive Cst where
  | long (n : Int)
  | real (num : Int) (den : Nat)
  | period (p : Period)
  deriving Repr, DecidableEq

/-- Tokens delivered by `L_get_token` (api/lec/l_token.cpp). -/
inductive RTok where
  | cst (k : Cst)
  | val (v : VFn)
  | var (x : Name)
  | coef (x : Name)
  | op (o : Op)
  | fun (f : Fun)
  | openp
  | closep
  | ocpar
  | comma
  | openb
  | closeb
  | eoe
  | bad
  deriving Repr, DecidableEq

/-- Tokens with the brackets grouped: a lag `[-n]`, `[+n]`, a period `[2000Y1]`, anything else
between brackets is an error. -/
inductive Tok where
  | cst (k : Cst)
  | val (v : VFn)
  | var (x : Name)
  | coef (x : Name)
  | op (o : Op)
  | fun (f : Fun)
  | openp
  | closep
  | ocpar
  | comma
  | lag (k : Int)
  | date (p : Period)
  | bad
  deriving Repr, DecidableEq

/-- `L_analyze_lag`, l_compile.cpp 460-512, reads its own tokens: the grouping of a bracket, and the
end of the formula at `;` (`L_EOE`, l_compile.cpp 620-638; what follows is never read). -/
def group : List RTok → List Tok
  | [] => []
  | .openb :: .op .minus :: .cst (.long n) :: .closeb :: ts => .lag (-n) :: group ts
  | .openb :: .op .plus :: .cst (.long n) :: .closeb :: ts => .lag n :: group ts
  | .openb :: .cst (.period p) :: .closeb :: ts => .date p :: group ts
  | .openb :: _ => [.bad]
  | .closeb :: _ => [.bad]
  | .bad :: _ => [.bad]
  | .eoe :: _ => []
  | .cst k :: ts => .cst k :: group ts
  | .val v :: ts => .val v :: group ts
  | .var x :: ts => .var x :: group ts
  | .coef x :: ts => .coef x :: group ts
  | .op o :: ts => .op o :: group ts
  | .fun f :: ts => .fun f :: group ts
  | .openp :: ts => .openp :: group ts
  | .closep :: ts => .closep :: group ts
  | .ocpar :: ts => .ocpar :: group ts
  | .comma :: ts => .comma :: group ts

/-- `ATOMIC_LEC`, the elements of `L_EXPR` (api/lec/lec.h, l_value.h, l_common.h).  A variable has a
lag and possibly a fixed period (`per.step != 0`). -/
inductive Atom where
  | cst (k : Cst)
  | val (v : VFn)
  | var (x : Name) (lag : Int) (per : Option Period)
  | coef (x : Name)
  | op (o : Op)
  | fun (f : Fun) (n : Nat)
  | openp
  | closep
  deriving Repr, DecidableEq

/-- `LSTACK`, l_compile.cpp 5-12: an entry of the stack of operators. -/
inductive Entry where
  | op (o : Op)
  | fun (f : Fun) (n : Nat)
  | openp
  deriving Repr, DecidableEq

/-- Outcome of a compilation.  On error the stack of operators stays as it is: `L_OPS` is a global
vector that nothing clears (l_compile.cpp 14, 516-520). -/
inductive CRes (α : Type u) where
  | ok (a : α)
  | err (ops : List Entry)
  | ub
  deriving Repr, DecidableEq

/-- Sequencing of compilation steps. -/
def CRes.bind {α : Type u} {β : Type v} (x : CRes α) (f : α → CRes β) : CRes β :=
  match x with
  | ok a => f a
  | err ops => err ops
  | ub => ub

/-- State of `generate_lec_expression`: `L_OPS` (top first), `L_EXPR`, `beg` and `L_PAR`. -/
structure St where
  ops : List Entry
  out : List Atom
  beg : Bool
  par : Int
  deriving Repr, DecidableEq

/-- `L_save_op`, l_compile.cpp 144-217, for the entry on top (already popped, `rest` remains). -/
def saveOp (e : Entry) (rest : List Entry) (out : List Atom) : CRes (List Atom) :=
  match e with
  | .openp => .ok (out ++ [.openp])
  | .op o => .ok (out ++ [.op o])
  | .fun f n => if f.arityOk n then .ok (out ++ [.fun f n]) else .err rest

/-- `L_priority_sup`, l_compile.cpp 113-132. -/
def prioSup (o : Op) : Entry → Bool
  | .openp => false
  | .fun _ _ => true
  | .op o' => o.prior ≤ o'.prior

/-- The loop of `L_add_stack` in front of an operator, l_compile.cpp 241-248. -/
def popWhile (o : Op) : List Entry → List Atom → CRes (List Entry × List Atom)
  | [], out => .ok ([], out)
  | e :: rest, out =>
    if prioSup o e then (saveOp e rest out).bind fun out => popWhile o rest out
    else .ok (e :: rest, out)

/-- The case `L_CLOSEP` of `L_add_stack`, l_compile.cpp 276-295. -/
def closeLoop : List Entry → List Atom → CRes (List Entry × List Atom)
  | [], _ => .err []
  | .openp :: rest, out => .ok (rest, out ++ [.closep])
  | e :: rest, out => (saveOp e rest out).bind fun out => closeLoop rest out

/-- `L_empty_ops_stack`, l_compile.cpp 341-353 (the `L_EOE` element is left out). -/
def flush : List Entry → List Atom → CRes (List Atom)
  | [], out => .ok out
  | e :: rest, out => (saveOp e rest out).bind fun out => flush rest out

/-- `L_sub_expr`, l_compile.cpp 676-729, on the reversed elements: how many elements the last
sub-expression has.  `d` is `nb_parents`.  When nothing is left in front of an operator the code
restarts from the end of the formula, here undefined; the `fuel` is the number of elements. -/
def sub : Nat → List Atom → Nat → Res Nat
  | _, [], _ => .err
  | 0, _ :: _, _ => .ub
  | fuel + 1, .closep :: r, d => (sub fuel r (d + 1)).bind fun k => .ok (k + 1)
  | _ + 1, .openp :: _, 0 => .ok 1
  | _ + 1, .openp :: _, 1 => .ok 1
  | fuel + 1, .openp :: r, d + 2 => (sub fuel r (d + 1)).bind fun k => .ok (k + 1)
  | fuel + 1, _ :: r, d + 1 => (sub fuel r (d + 1)).bind fun k => .ok (k + 1)
  | fuel + 1, .op _ :: r, 0 =>
    if r = [] then .ub
    else (sub fuel r 0).bind fun k =>
      if r.drop k = [] then .ub
      else (sub fuel (r.drop k) 0).bind fun k' => .ok (k' + k + 1)
  | fuel + 1, .fun _ _ :: r, 0 => (sub fuel r 0).bind fun k => .ok (k + 1)
  | _ + 1, _ :: _, 0 => .ok 1

/-- Number of elements of the sub-expression that ends the list. -/
def subLast (out : List Atom) : Res Nat := sub out.length out.reverse 0

/-- Effect of `L_lag_expr` on one element, l_compile.cpp 372-392. -/
def lagAtom (k : Int) : Atom → Atom
  | .var x l none => .var x (l + k) none
  | a => a

/-- Effect of `L_time_expr` on one element, l_compile.cpp 416-437. -/
def dateAtom (p : Period) : Atom → Atom
  | .var x l none => .var x l (some p)
  | a => a

/-- `L_lag_expr` and `L_time_expr`, l_compile.cpp 366-441: apply `f` to the last sub-expression.
An empty `L_EXPR` is left alone without an error. -/
def mapLast (f : Atom → Atom) (st : St) : CRes St :=
  if st.out = [] then .ok st
  else
    match subLast st.out with
    | .ok k =>
      .ok { st with out := st.out.take (st.out.length - k) ++ (st.out.drop (st.out.length - k)).map f }
    | .err => .err st.ops
    | .ub => .ub

/-- The cases `L_VAR`, `L_COEF`, ... of the main loop, l_compile.cpp 536-550. -/
def value (a : Atom) (st : St) : CRes St :=
  if st.beg then .ok { st with out := st.out ++ [a], beg := false } else .err st.ops

/-- A function name, l_compile.cpp 577-587 and 250-259. -/
def pushFun (f : Fun) (st : St) : CRes St :=
  if st.beg then .ok { st with ops := .fun f 1 :: st.ops } else .err st.ops

/-- An operator, l_compile.cpp 551-576: in front of an operand only a sign is accepted. -/
def operator (o : Op) (st : St) : CRes St :=
  if st.beg then
    match o with
    | .minus => pushFun (.fn .uminus) st
    | .plus => pushFun (.fn .uplus) st
    | _ => .err st.ops
  else
    (popWhile o st.ops st.out).bind fun r =>
      .ok { st with ops := .op o :: r.1, out := r.2, beg := true }

/-- An opening parenthesis, l_compile.cpp 577-587 and 261-274. -/
def openPar (st : St) : CRes St :=
  if st.beg then
    .ok { st with ops := .openp :: st.ops, out := st.out ++ [.openp], par := st.par + 1 }
  else .err st.ops

/-- `()`, l_compile.cpp 588-597 and 312-324: `back()` of an empty vector is undefined. -/
def openClose (st : St) : CRes St :=
  if st.beg then
    match st.ops with
    | [] => .ub
    | .fun (.fn f) _ :: rest => .ok { st with ops := .fun (.fn f) 0 :: rest, beg := false }
    | _ => .err st.ops
  else .err st.ops

/-- A closing parenthesis, l_compile.cpp 598-606 and 276-295. -/
def closePar (st : St) : CRes St :=
  if st.beg then .err st.ops
  else (closeLoop st.ops st.out).bind fun r => .ok { st with ops := r.1, out := r.2, par := st.par - 1 }

/-- A comma, l_compile.cpp 607-616 and 297-310: closes the group, counts one more argument, opens a
new group; `back()` of an empty vector is undefined. -/
def commaStep (st : St) : CRes St :=
  if st.beg then .err st.ops
  else
    (closeLoop st.ops st.out).bind fun r =>
      match r.1 with
      | [] => .ub
      | .fun f n :: rest =>
        .ok { st with ops := .openp :: .fun f (n + 1) :: rest, out := r.2 ++ [.openp], beg := true }
      | _ => .err r.1

/-- A bracket, l_compile.cpp 617-626 and 454-505. -/
def bracket (f : Atom → Atom) (st : St) : CRes St :=
  if st.beg then .err st.ops else mapLast f st

/-- One turn of the loop of `generate_lec_expression`, l_compile.cpp 523-654. -/
def step (st : St) : Tok → CRes St
  | .cst k => value (.cst k) st
  | .val v => value (.val v) st
  | .var x => value (.var x 0 none) st
  | .coef x => value (.coef x) st
  | .op o => operator o st
  | .fun f => pushFun f st
  | .openp => openPar st
  | .closep => closePar st
  | .ocpar => openClose st
  | .comma => commaStep st
  | .lag k => bracket (lagAtom k) st
  | .date p => bracket (dateAtom p) st
  | .bad => .err st.ops

/-- The loop over the tokens. -/
def run : St → List Tok → CRes St
  | st, [] => .ok st
  | st, t :: ts => (step st t).bind fun st => run st ts

/-- End of the formula, l_compile.cpp 627-643. -/
def finish (st : St) : CRes (List Atom) :=
  if st.beg then .err st.ops
  else if st.par ≠ 0 then .err st.ops
  else flush st.ops st.out

/-- `generate_lec_expression`, l_compile.cpp 508-655, starting from the stack of operators `ops` left
by the formulas compiled before.  An empty formula is refused by `CLEC::initialize`
(k_lec.cpp 253-259). -/
def compile (ops : List Entry) (ts : List Tok) : CRes (List Atom) :=
  if ts = [] then .err ops
  else (run { ops := ops, out := [], beg := true, par := 0 } ts).bind finish

/-! ## Second stage -/

/-- The executable form: the elements of the byte buffer in order; a time function is followed by the
code of its expression argument(s). -/
inductive Instr where
  | cst (k : Cst)
  | val (v : VFn)
  | var (x : Name) (lag : Int) (per : Option Period)
  | coef (x : Name)
  | op (o : Op)
  | fn (f : Fn) (n : Nat)
  | tfn (f : TFn) (n : Nat) (body : List Instr)
  | mtfn (f : MFn) (n : Nat) (body1 body2 : List Instr)
  deriving Repr

/-- `sizeof(Period)` where `long` has 8 bytes, api/time/period.h 80-84. -/
def periodSize : Nat := 24

/-- What an element counts for in `calculate_length` (lec.h 92-115): the bytes of the element without
those of its arguments.  For the functions of several expressions this leaves out the
`2 * nv_args` bytes that hold the lengths of the arguments (l_exec_mtfn.h 101, 132-171). -/
def atomLen : Atom → Nat
  | .cst (.long _) => 9
  | .cst (.real _ _) => 9
  | .cst (.period _) => 3 + periodSize
  | .val _ => 1
  | .var _ _ _ => 9 + periodSize
  | .coef _ => 5
  | .op _ => 1
  | .fun (.fn _) _ => 2
  | .fun (.tfn _) _ => 4
  | .fun (.mtfn _) _ => 5
  | .openp => 0
  | .closep => 0

mutual
/-- Number of bytes of an instruction in the buffer (the `add_to_buffer` methods). -/
def instrLen : Instr → Nat
  | .cst (.long _) => 9
  | .cst (.real _ _) => 9
  | .cst (.period _) => 3 + periodSize
  | .val _ => 1
  | .var _ _ _ => 9 + periodSize
  | .coef _ => 5
  | .op _ => 1
  | .fn _ _ => 2
  | .tfn _ _ b => 4 + codeLen b
  | .mtfn f _ b1 b2 => 5 + 2 * f.minArgs + codeLen b1 + codeLen b2
/-- Number of bytes of a piece of code. -/
def codeLen : List Instr → Nat
  | [] => 0
  | i :: is => instrLen i + codeLen is
end

/-- Take the last `len` bytes of the buffer (kept last instruction first); `none` when this does not
fall between two instructions. -/
def takeBack : Nat → List Instr → List Instr → Option (List Instr × List Instr)
  | 0, buf, acc => some (acc, buf)
  | _ + 1, [], _ => none
  | len + 1, i :: buf, acc =>
    if instrLen i ≤ len + 1 then takeBack (len + 1 - instrLen i) buf (i :: acc) else none
  termination_by _ buf _ => buf.length

/-- Bytes counted for a list of elements, lec.h 92-115. -/
def atomsLen (l : List Atom) : Nat := (l.map atomLen).sum

/-- One turn of the loop of `CLEC::initialize`, k_lec.cpp 190-250.  `seen` are the elements in front
(last first), `buf` the buffer (last instruction first).  Cutting through the middle of an
instruction is reported as undefined. -/
def buildStep (seen : List Atom) (buf : List Instr) : Atom → Res (List Instr)
  | .openp => .ok buf
  | .closep => .ok buf
  | .cst k => .ok (.cst k :: buf)
  | .val v => .ok (.val v :: buf)
  | .var x l p => .ok (.var x l p :: buf)
  | .coef x => .ok (.coef x :: buf)
  | .op o => .ok (.op o :: buf)
  | .fun (.fn f) n => .ok (.fn f n :: buf)
  | .fun (.tfn f) n =>
    match sub seen.length seen 0 with
    | .ok k =>
      if atomsLen (seen.take k) ≤ codeLen buf then
        match takeBack (atomsLen (seen.take k)) buf [] with
        | some r => .ok (.tfn f n r.1 :: r.2)
        | none => .ub
      else .err
    | _ => .ub
  | .fun (.mtfn f) n =>
    match sub seen.length seen 0 with
    | .ok k =>
      match takeBack (atomsLen (seen.take k)) buf [] with
      | some r =>
        if f.minArgs = 1 then .ok (.mtfn f n r.1 [] :: r.2)
        else
          match sub (seen.drop k).length (seen.drop k) 0 with
          | .ok k' =>
            match takeBack (atomsLen ((seen.drop k).take k')) r.2 [] with
            | some r' => .ok (.mtfn f n r'.1 r.1 :: r'.2)
            | none => .ub
          | _ => .ub
      | none => .ub
    | _ => .ub

/-- The loop of `CLEC::initialize`. -/
def buildLoop : List Atom → List Instr → List Atom → Res (List Instr)
  | _, buf, [] => .ok buf.reverse
  | seen, buf, a :: as => (buildStep seen buf a).bind fun buf => buildLoop (a :: seen) buf as

/-- `CLEC::initialize`, k_lec.cpp 181-278: the executable code of a list of elements. -/
def build (as : List Atom) : Res (List Instr) := buildLoop [] [] as

end Iode.Lec
